import Verif.Props.RSGeom

/-!
# Curves: from the start to the goal
-/

noncomputable section

namespace PathPlanning.RS
open Spec

/-- The segment `s` can be driven from configuration `q` on: a circle segment starts in that
configuration; a line starts at that position and leads along the heading (forward or backward). -/
def OnTrack (E : RSEnv) (q : Pose) : Seg → Prop
  | .circ c => c.radius = E.radius ∧ c.Fit E ∧ SameConfig q (c.confAt c.aStart)
  | .line l => l.start.x = q.x ∧ l.start.y = q.y ∧
      l.stop.x - l.start.x = eucl l.start.pt l.stop.pt * (dirSign l.dir * Real.cos q.theta) ∧
      l.stop.y - l.start.y = eucl l.start.pt l.stop.pt * (dirSign l.dir * Real.sin q.theta) ∧
      l.theta = (l.stop.pt - l.start.pt).angle

/-- Each segment starts where driving the previous ones leads, the last one ends in `goal`. -/
def Track (E : RSEnv) : Pose → List Seg → Pose → Prop
  | q, [], goal => SameConfig q goal
  | q, s :: rest, goal =>
    OnTrack E q s ∧ Track E (drive E.radius q (elemOf s) (amountOf s)) rest goal

theorem driveAll_congr (r : ℝ) (l : List (Elem × ℝ)) {p q : Pose} (h : SameConfig p q) :
    SameConfig (driveAll r p l) (driveAll r q l) := by
  induction l generalizing p q with
  | nil => exact h
  | cons a l ih => exact ih (h.drive r a.1 a.2)

theorem Track.reaches {E : RSEnv} {segs : List Seg} {q goal : Pose} (h : Track E q segs goal) :
    SameConfig (driveAll E.radius q (segs.map fun s => (elemOf s, amountOf s))) goal := by
  induction segs generalizing q with
  | nil => exact h
  | cons s rest ih => exact ih h.2

/-! ### What the helpers leave alone -/

/-- First circle: only the end angle may have changed. -/
structure KeepS (a a' : Circ) : Prop where
  ori : a'.ori = a.ori
  dir : a'.dir = a.dir
  center : a'.center = a.center
  radius : a'.radius = a.radius
  aStart : a'.aStart = a.aStart

/-- Last circle: only the start angle may have changed. -/
structure KeepE (a a' : Circ) : Prop where
  ori : a'.ori = a.ori
  dir : a'.dir = a.dir
  center : a'.center = a.center
  radius : a'.radius = a.radius
  aEnd : a'.aEnd = a.aEnd

/-- Middle circle: side, direction and radius are kept. -/
structure KeepM (a a' : Circ) : Prop where
  ori : a'.ori = a.ori
  dir : a'.dir = a.dir
  radius : a'.radius = a.radius

theorem KeepS.trans {a b c : Circ} (h : KeepS a b) (h' : KeepS b c) : KeepS a c :=
  ⟨h'.1.trans h.1, h'.2.trans h.2, h'.3.trans h.3, h'.4.trans h.4, h'.5.trans h.5⟩
theorem KeepE.trans {a b c : Circ} (h : KeepE a b) (h' : KeepE b c) : KeepE a c :=
  ⟨h'.1.trans h.1, h'.2.trans h.2, h'.3.trans h.3, h'.4.trans h.4, h'.5.trans h.5⟩
theorem KeepM.trans {a b c : Circ} (h : KeepM a b) (h' : KeepM b c) : KeepM a c :=
  ⟨h'.1.trans h.1, h'.2.trans h.2, h'.3.trans h.3⟩

theorem commonTangent_keep {E : RSEnv} {a b a' b' : Circ} {l l' : Lin}
    (h : commonTangent E a l b = some (a', l', b')) :
    KeepS a a' ∧ KeepE b b' ∧ l'.dir = l.dir ∧ a'.Fit E ∧ b'.Fit E ∧
      l'.theta = (l'.stop.pt - l'.start.pt).angle := by
  unfold commonTangent at h
  split at h
  · cases h
  · split at h <;>
    · injection h with h
      first
      | (unfold externalTangent at h)
      | (unfold internalTangent at h)
      simp only [Prod.mk.injEq] at h
      obtain ⟨rfl, rfl, rfl⟩ := h
      exact ⟨⟨rfl, rfl, rfl, rfl, rfl⟩, ⟨rfl, rfl, rfl, rfl, rfl⟩, rfl, ⟨rfl, rfl, rfl⟩,
        ⟨rfl, rfl, rfl⟩, rfl⟩

theorem tangentialCircle_keep (E : RSEnv) (p : Bool) (a m b : Circ) :
    KeepS a (tangentialCircle E p a m b).1 ∧ KeepM m (tangentialCircle E p a m b).2.1 ∧
      KeepE b (tangentialCircle E p a m b).2.2 ∧ (tangentialCircle E p a m b).1.Fit E ∧
      (tangentialCircle E p a m b).2.1.Fit E ∧ (tangentialCircle E p a m b).2.2.Fit E :=
  ⟨⟨rfl, rfl, rfl, rfl, rfl⟩, ⟨rfl, rfl, rfl⟩, ⟨rfl, rfl, rfl, rfl, rfl⟩, ⟨rfl, rfl, rfl⟩,
    ⟨rfl, rfl, rfl⟩, ⟨rfl, rfl, rfl⟩⟩

theorem tangentialDouble_keep (E : RSEnv) (p : Bool) (a c2 c3 b : Circ) :
    KeepS a (tangentialDouble E p a c2 c3 b).1 ∧ KeepM c2 (tangentialDouble E p a c2 c3 b).2.1 ∧
      KeepM c3 (tangentialDouble E p a c2 c3 b).2.2.1 ∧
      KeepE b (tangentialDouble E p a c2 c3 b).2.2.2 ∧ (tangentialDouble E p a c2 c3 b).1.Fit E ∧
      (tangentialDouble E p a c2 c3 b).2.1.Fit E ∧ (tangentialDouble E p a c2 c3 b).2.2.1.Fit E ∧
      (tangentialDouble E p a c2 c3 b).2.2.2.Fit E :=
  ⟨⟨rfl, rfl, rfl, rfl, rfl⟩, ⟨rfl, rfl, rfl⟩, ⟨rfl, rfl, rfl⟩, ⟨rfl, rfl, rfl, rfl, rfl⟩,
    ⟨rfl, rfl, rfl⟩, ⟨rfl, rfl, rfl⟩, ⟨rfl, rfl, rfl⟩, ⟨rfl, rfl, rfl⟩⟩

/-- What success of `symmetry_helper` means. -/
theorem symmetryHelper_true {E : RSEnv} {f z : Circ} {cs : List Circ} {md : ℝ}
    {cb : Bool → List Circ → List Circ} (h : (symmetryHelper E f z cs md cb).1 = true) :
    ¬ (f.center - z.center).length < 2 ∧ ¬ (f.center - z.center).length > md * f.radius ∧
    ∃ p, (symmetryHelper E f z cs md cb).2 = cb p (cb false (cb true cs)) := by
  unfold symmetryHelper at h ⊢
  by_cases h1 : (f.center - z.center).length < 2
  · rw [if_pos h1] at h; simp at h
  by_cases h2 : (f.center - z.center).length > md * f.radius
  · rw [if_neg h1, if_pos h2] at h; simp at h
  rw [if_neg h1, if_neg h2] at h ⊢
  simp only at h ⊢
  refine ⟨h1, h2, ?_⟩
  split_ifs at h ⊢ with h3 h4
  · exact ⟨true, rfl⟩
  · exact ⟨false, rfl⟩

/-! ### Start and goal -/

section
variable {E : RSEnv} (hC : ClampSpec E.clamp)
include hC

theorem pair_conf (p : Pose) (c : Circ) {t : ℝ} (hr : c.radius = E.radius)
    (hc : c.center = pairFor E c.ori p)
    (ht : t = E.clamp (Circ.angleFor c.ori p.theta)) : SameConfig p (c.confAt t) := by
  have tr := angleFor_trig hC c.ori p.theta
  rw [← ht] at tr
  refine SameConfig.of_trig ?_ ?_ ?_ ?_
  · simp only [Circ.confAt]
    rw [hc, hr, tr.1]
    cases c.ori <;> simp [pairFor, circlePair, P2.fromPolar, oriSign, Real.cos_add_pi_div_two]
  · simp only [Circ.confAt]
    rw [hc, hr, tr.2]
    cases c.ori <;> simp [pairFor, circlePair, P2.fromPolar, oriSign, Real.sin_add_pi_div_two]
  · simp only [Circ.confAt]
    cases ho : c.ori <;> rw [ho] at tr <;> simp only [oriSign, one_mul, neg_mul, neg_neg] at tr ⊢
    · rw [Real.cos_add_pi_div_two, tr.2]; ring
    · rw [← sub_eq_add_neg, Real.cos_sub_pi_div_two, tr.2]
  · simp only [Circ.confAt]
    cases ho : c.ori <;> rw [ho] at tr <;> simp only [oriSign, one_mul, neg_mul, neg_neg] at tr ⊢
    · rw [Real.sin_add_pi_div_two, tr.1]
    · rw [← sub_eq_add_neg, Real.sin_sub_pi_div_two, tr.1]; ring

/-- The first circle after `init_segments`. -/
theorem step_arc {q : Pose} {c : Circ} (hr : c.radius = E.radius) (hf : c.Fit E)
    (hq : SameConfig q (c.confAt c.aStart)) :
    SameConfig (drive E.radius q (elemOf (.circ c)) (amountOf (.circ c))) (c.confAt c.aEnd) := by
  have h1 := hq.drive c.radius (.turn c.ori c.dir) |c.arc|
  have h2 := drive_fit hC hf
  rw [← hr]
  exact h1.trans h2

omit hC in
theorem onTrack_line {q : Pose} {a b : Circ} {l : Lin} (hj : LineJoin a l b)
    (hq : SameConfig q (a.confAt a.aEnd)) (hθ : l.theta = (l.stop.pt - l.start.pt).angle) :
    OnTrack E q (.line l) := by
  obtain ⟨hp, hs, _, _, hd⟩ := hj
  have p1 := congrArg P2.x hp
  have p2 := congrArg P2.y hp
  have s1 := congrArg P2.x hs
  have s2 := congrArg P2.y hs
  obtain ⟨d1, d2, _⟩ := hd
  have hc := hq.cos
  have hsn := hq.sin
  obtain ⟨q1, q2, _⟩ := hq
  simp only [Pose.pt, Circ.endPoint, Circ.startPoint, P2.add_x, P2.add_y, P2.fromPolar] at p1 p2 s1 s2
  simp only [Spec.drive] at d1 d2
  have e1 : (a.confAt a.aEnd).x = l.start.x := by rw [p1]; rfl
  have e2 : (a.confAt a.aEnd).y = l.start.y := by rw [p2]; rfl
  have e3 : (b.confAt b.aStart).x = l.stop.x := by rw [s1]; rfl
  have e4 : (b.confAt b.aStart).y = l.stop.y := by rw [s2]; rfl
  rw [e1, e3, ← hc] at d1
  rw [e2, e4, ← hsn] at d2
  refine ⟨by rw [q1, e1], by rw [q2, e2], ?_, ?_, hθ⟩
  · rw [← d1]; ring
  · rw [← d2]; ring

omit hC in
theorem step_line {q : Pose} {a b : Circ} {l : Lin} (hj : LineJoin a l b)
    (hr : a.radius = E.radius) (hq : SameConfig q (a.confAt a.aEnd)) :
    SameConfig (drive E.radius q (elemOf (.line l)) (amountOf (.line l))) (b.confAt b.aStart) := by
  have h1 := hq.drive a.radius (.straight l.dir) (eucl l.start.pt l.stop.pt)
  rw [← hr]
  exact h1.trans hj.drive

end

/-- The elements of a list of segments. -/
def elemsOf (segs : List Seg) : List Elem := segs.map elemOf

theorem setup_elem (E : RSEnv) (s : Seg) : elemOf (s.setup E) = elemOf s := by cases s <;> rfl

/-- First circle after `init_segments`. -/
def initA (E : RSEnv) (start : Pose) (a : Circ) : Circ :=
  ((a.setRadius E.radius).setCenter (pairFor E a.ori start)).setStartFor E start.theta
/-- Last circle after `init_segments`. -/
def initZ (E : RSEnv) (goal : Pose) (z : Circ) : Circ :=
  ((z.setRadius E.radius).setCenter (pairFor E z.ori goal)).setEndFor E goal.theta

/-- The four shapes of a pattern with three or four elements that starts and ends with a turn, and
what `init_segments` and `handle_sequence` do with them. -/
theorem check_shape (E : RSEnv) (c : Curve) (h3 : ¬ (c.seq.length < 3 ∨ c.seq.length > 4))
    (hd : ¬ c.start.distTo c.goal < 2) :
    (∃ a l b, c.seq = [.circ a, .line l, .circ b] ∧
      c.check E = .ok { c with
        seq := (handleCSC E (initA E c.start a) l (initZ E c.goal b)).1,
        weight := (handleCSC E (initA E c.start a) l (initZ E c.goal b)).2 }) ∨
    (∃ a m b, c.seq = [.circ a, .circ m, .circ b] ∧
      c.check E = .ok { c with
        seq := (handleC3 E (initA E c.start a) (m.setRadius E.radius) (initZ E c.goal b)).1,
        weight := (handleC3 E (initA E c.start a) (m.setRadius E.radius) (initZ E c.goal b)).2 }) ∨
    (∃ a m n b, c.seq = [.circ a, .circ m, .circ n, .circ b] ∧
      c.check E = .ok { c with
        seq := (handleC4 E (initA E c.start a) (m.setRadius E.radius) (n.setRadius E.radius)
          (initZ E c.goal b)).1,
        weight := (handleC4 E (initA E c.start a) (m.setRadius E.radius) (n.setRadius E.radius)
          (initZ E c.goal b)).2 }) ∨
    (∃ a s t b, c.seq = [.circ a, s, t, .circ b] ∧
      ((∃ l, s = .line l) ∨ (∃ l, t = .line l)) ∧
      c.check E = .ok { c with
        seq := [.circ (initA E c.start a), s.setup E, t.setup E, .circ (initZ E c.goal b)],
        weight := NOT_FREE }) ∨
    (((∃ l rest, c.seq = .line l :: rest) ∨ (∃ pre l, c.seq = pre ++ [.line l])) ∧
      c.check E = .ub) := by
  have hcheck : c.check E = (do
      let s ← initSegments E c.start c.goal c.seq
      let r ← handleSequence E s
      pure { c with seq := r.1, weight := r.2 }) := by
    unfold Curve.check
    rw [if_neg h3, if_neg hd]
  rw [hcheck]
  push Not at h3
  rcases hs : c.seq with _ | ⟨s1, _ | ⟨s2, _ | ⟨s3, _ | ⟨s4, _ | ⟨s5, r⟩⟩⟩⟩⟩ <;> rw [hs] at h3
  · simp at h3
  · simp at h3
  · simp at h3
  · -- three segments
    cases s1 with
    | line l => right; right; right; right; exact ⟨Or.inl ⟨l, _, rfl⟩, rfl⟩
    | circ a =>
      cases s3 with
      | line l =>
        right; right; right; right
        exact ⟨Or.inr ⟨[.circ a, s2], l, rfl⟩, rfl⟩
      | circ b =>
        cases s2 with
        | line l => left; exact ⟨a, l, b, rfl, rfl⟩
        | circ m => right; left; exact ⟨a, m, b, rfl, rfl⟩
  · -- four segments
    cases s1 with
    | line l => right; right; right; right; exact ⟨Or.inl ⟨l, _, rfl⟩, rfl⟩
    | circ a =>
      cases s4 with
      | line l =>
        right; right; right; right
        exact ⟨Or.inr ⟨[.circ a, s2, s3], l, rfl⟩, rfl⟩
      | circ b =>
        cases s2 with
        | line l =>
          right; right; right; left
          exact ⟨a, .line l, s3, b, rfl, Or.inl ⟨l, rfl⟩, by cases s3 <;> rfl⟩
        | circ m =>
          cases s3 with
          | line l =>
            right; right; right; left
            exact ⟨a, .circ m, .line l, b, rfl, Or.inr ⟨l, rfl⟩, rfl⟩
          | circ n => right; right; left; exact ⟨a, m, n, b, rfl, rfl⟩
  · simp at h3; omega

section
variable {E : RSEnv} (hC : ClampSpec E.clamp) (hr0 : 0 < E.radius)
include hC hr0

theorem handleCSC_track (a b : Circ) (l : Lin) (start goal : Pose)
    (hw : (handleCSC E (initA E start a) l (initZ E goal b)).2 < NOT_FREE) :
    Track E start (handleCSC E (initA E start a) l (initZ E goal b)).1 goal ∧
    elemsOf (handleCSC E (initA E start a) l (initZ E goal b)).1 =
      elemsOf [.circ a, .line l, .circ b] := by
  unfold handleCSC at hw ⊢
  cases hct : commonTangent E (initA E start a) l (initZ E goal b) with
  | none => rw [hct] at hw; exact absurd hw (lt_irrefl _)
  | some r =>
    obtain ⟨a', l', b'⟩ := r
    have hj := (commonTangent_join hC (initA E start a) l (initZ E goal b) rfl hr0).2 a' l' b' hct
    obtain ⟨kS, kE, hdir, fa, fb, hθ⟩ := commonTangent_keep hct
    have ra : a'.radius = E.radius := kS.radius
    have rb : b'.radius = E.radius := kE.radius
    have q0 : SameConfig start (a'.confAt a'.aStart) := by
      refine pair_conf hC start a' ra ?_ ?_
      · rw [kS.center, kS.ori]; rfl
      · rw [kS.aStart, kS.ori]; rfl
    have q1 := step_arc hC ra fa q0
    have q2 := step_line hj ra q1
    have q3 := step_arc hC rb fb q2
    have q4 : SameConfig goal (b'.confAt b'.aEnd) := by
      refine pair_conf hC goal b' rb ?_ ?_
      · rw [kE.center, kE.ori]; rfl
      · rw [kE.aEnd, kE.ori]; rfl
    refine ⟨⟨⟨ra, fa, q0⟩, onTrack_line hj q1 hθ, ⟨rb, fb, q2⟩, q3.trans q4.symm⟩, ?_⟩
    simp only [elemsOf, List.map, elemOf, hdir, kS.ori, kS.dir, kE.ori, kE.dir]
    rfl

theorem handleC3_track (a m b : Circ) (start goal : Pose) (o1 : a.ori ≠ m.ori) (o2 : m.ori ≠ b.ori)
    (hw : (handleC3 E (initA E start a) (m.setRadius E.radius) (initZ E goal b)).2 < NOT_FREE) :
    Track E start (handleC3 E (initA E start a) (m.setRadius E.radius) (initZ E goal b)).1 goal ∧
    elemsOf (handleC3 E (initA E start a) (m.setRadius E.radius) (initZ E goal b)).1 =
      elemsOf [.circ a, .circ m, .circ b] := by
  unfold handleC3 at hw ⊢
  simp only at hw ⊢
  set A := initA E start a with hA
  set M := m.setRadius E.radius with hM
  set B := initZ E goal b with hB
  cases hs : (symmetryHelper E A B [A, M, B] 4 (tangentialCircleVec E)).1 with
  | false => rw [hs] at hw; exact absurd hw (by simp)
  | true =>
    obtain ⟨g1, g2, p, hp⟩ := symmetryHelper_true hs
    rw [hp]
    -- two preparatory calls
    obtain ⟨s1, m1, e1, -, -, -⟩ := tangentialCircle_keep E true A M B
    set T := tangentialCircle E true A M B with hT
    obtain ⟨s2, m2, e2, -, -, -⟩ := tangentialCircle_keep E false T.1 T.2.1 T.2.2
    set U := tangentialCircle E false T.1 T.2.1 T.2.2 with hU
    obtain ⟨s3, m3, e3, f1, f2, f3⟩ := tangentialCircle_keep E p U.1 U.2.1 U.2.2
    have sU := s1.trans s2
    have mU := m1.trans m2
    have eU := e1.trans e2
    have hres : tangentialCircleVec E p (tangentialCircleVec E false
        (tangentialCircleVec E true [A, M, B])) =
        [(tangentialCircle E p U.1 U.2.1 U.2.2).1, (tangentialCircle E p U.1 U.2.1 U.2.2).2.1,
          (tangentialCircle E p U.1 U.2.1 U.2.2).2.2] := rfl
    rw [hres]
    have hrA : A.radius = E.radius := rfl
    have hlen : (U.2.2.center - U.1.center).length = (A.center - B.center).length := by
      rw [eU.center, sU.center, length_sub_comm]
    obtain ⟨_, _, j1, j2⟩ := tangentialCircle_join hC p U.1 U.2.1 U.2.2
      (by rw [sU.radius]; exact hr0) (by rw [mU.radius, sU.radius]; rfl)
      (by rw [eU.radius, sU.radius]; rfl) (by rw [hlen]; linarith)
      (by rw [hlen, sU.radius]; linarith)
    have j1 := j1 (by rw [sU.ori, mU.ori]; exact o1)
    have j2 := j2 (by rw [mU.ori, eU.ori]; exact o2)
    set V := tangentialCircle E p U.1 U.2.1 U.2.2 with hV
    have sV := sU.trans s3
    have mV := mU.trans m3
    have eV := eU.trans e3
    have r1 : V.1.radius = E.radius := sV.radius
    have r2 : V.2.1.radius = E.radius := mV.radius
    have r3 : V.2.2.radius = E.radius := eV.radius
    have q0 : SameConfig start (V.1.confAt V.1.aStart) := by
      refine pair_conf hC start V.1 r1 ?_ ?_
      · rw [sV.center, sV.ori]; rfl
      · rw [sV.aStart, sV.ori]; rfl
    have q1 := (step_arc hC r1 f1 q0).trans j1
    have q2 := (step_arc hC r2 f2 q1).trans j2
    have q3 := step_arc hC r3 f3 q2
    have q4 : SameConfig goal (V.2.2.confAt V.2.2.aEnd) := by
      refine pair_conf hC goal V.2.2 r3 ?_ ?_
      · rw [eV.center, eV.ori]; rfl
      · rw [eV.aEnd, eV.ori]; rfl
    refine ⟨⟨⟨r1, f1, q0⟩, ⟨r2, f2, q1⟩, ⟨r3, f3, q2⟩, q3.trans q4.symm⟩, ?_⟩
    simp only [elemsOf, List.map, elemOf, sV.ori, sV.dir, mV.ori, mV.dir, eV.ori, eV.dir]
    rfl

theorem handleC4_track (a m n b : Circ) (start goal : Pose) (o1 : a.ori ≠ m.ori) (o2 : m.ori ≠ n.ori)
    (o3 : n.ori ≠ b.ori)
    (hw : (handleC4 E (initA E start a) (m.setRadius E.radius) (n.setRadius E.radius)
      (initZ E goal b)).2 < NOT_FREE) :
    Track E start (handleC4 E (initA E start a) (m.setRadius E.radius) (n.setRadius E.radius)
      (initZ E goal b)).1 goal ∧
    elemsOf (handleC4 E (initA E start a) (m.setRadius E.radius) (n.setRadius E.radius)
      (initZ E goal b)).1 = elemsOf [.circ a, .circ m, .circ n, .circ b] := by
  unfold handleC4 at hw ⊢
  simp only at hw ⊢
  set A := initA E start a with hA
  set M := m.setRadius E.radius with hM
  set N := n.setRadius E.radius with hN
  set B := initZ E goal b with hB
  cases hs : (symmetryHelper E A B [A, M, N, B] 6 (tangentialDoubleVec E)).1 with
  | false => rw [hs] at hw; exact absurd hw (by simp)
  | true =>
    obtain ⟨g1, g2, p, hp⟩ := symmetryHelper_true hs
    rw [hp]
    obtain ⟨s1, m1, n1, e1, -, -, -, -⟩ := tangentialDouble_keep E true A M N B
    set T := tangentialDouble E true A M N B with hT
    obtain ⟨s2, m2, n2, e2, -, -, -, -⟩ := tangentialDouble_keep E false T.1 T.2.1 T.2.2.1 T.2.2.2
    set U := tangentialDouble E false T.1 T.2.1 T.2.2.1 T.2.2.2 with hU
    obtain ⟨s3, m3, n3, e3, f1, f2, f3, f4⟩ :=
      tangentialDouble_keep E p U.1 U.2.1 U.2.2.1 U.2.2.2
    have sU := s1.trans s2
    have mU := m1.trans m2
    have nU := n1.trans n2
    have eU := e1.trans e2
    have hres : tangentialDoubleVec E p (tangentialDoubleVec E false
        (tangentialDoubleVec E true [A, M, N, B])) =
        [(tangentialDouble E p U.1 U.2.1 U.2.2.1 U.2.2.2).1,
          (tangentialDouble E p U.1 U.2.1 U.2.2.1 U.2.2.2).2.1,
          (tangentialDouble E p U.1 U.2.1 U.2.2.1 U.2.2.2).2.2.1,
          (tangentialDouble E p U.1 U.2.1 U.2.2.1 U.2.2.2).2.2.2] := rfl
    rw [hres]
    have hrA : A.radius = E.radius := rfl
    have hlen : (U.2.2.2.center - U.1.center).length = (A.center - B.center).length := by
      rw [eU.center, sU.center, length_sub_comm]
    obtain ⟨_, _, _, j1, j2, j3⟩ := tangentialDouble_join hC p U.1 U.2.1 U.2.2.1 U.2.2.2
      (by rw [sU.radius]; exact hr0) (by rw [mU.radius, sU.radius]; rfl)
      (by rw [nU.radius, sU.radius]; rfl)
      (by rw [eU.radius, sU.radius]; rfl) (by rw [hlen]; linarith)
      (by rw [hlen, sU.radius]; linarith)
    have j1 := j1 (by rw [sU.ori, mU.ori]; exact o1)
    have j2 := j2 (by rw [mU.ori, nU.ori]; exact o2)
    have j3 := j3 (by rw [nU.ori, eU.ori]; exact o3)
    set V := tangentialDouble E p U.1 U.2.1 U.2.2.1 U.2.2.2 with hV
    have sV := sU.trans s3
    have mV := mU.trans m3
    have nV := nU.trans n3
    have eV := eU.trans e3
    have r1 : V.1.radius = E.radius := sV.radius
    have r2 : V.2.1.radius = E.radius := mV.radius
    have r3 : V.2.2.1.radius = E.radius := nV.radius
    have r4 : V.2.2.2.radius = E.radius := eV.radius
    have q0 : SameConfig start (V.1.confAt V.1.aStart) := by
      refine pair_conf hC start V.1 r1 ?_ ?_
      · rw [sV.center, sV.ori]; rfl
      · rw [sV.aStart, sV.ori]; rfl
    have q1 := (step_arc hC r1 f1 q0).trans j1
    have q2 := (step_arc hC r2 f2 q1).trans j2
    have q3 := (step_arc hC r3 f3 q2).trans j3
    have q4 := step_arc hC r4 f4 q3
    have q5 : SameConfig goal (V.2.2.2.confAt V.2.2.2.aEnd) := by
      refine pair_conf hC goal V.2.2.2 r4 ?_ ?_
      · rw [eV.center, eV.ori]; rfl
      · rw [eV.aEnd, eV.ori]; rfl
    refine ⟨⟨⟨r1, f1, q0⟩, ⟨r2, f2, q1⟩, ⟨r3, f3, q2⟩, ⟨r4, f4, q3⟩, q4.trans q5.symm⟩, ?_⟩
    simp only [elemsOf, List.map, elemOf, sV.ori, sV.dir, mV.ori, mV.dir, nV.ori, nV.dir, eV.ori,
      eV.dir]
    rfl

/-- **C42/C60.** A curve accepted by `check_if_admissible` whose pattern changes sides between
consecutive turns describes a motion with exactly the elements of its pattern that leads a car from
the start to the goal, each segment beginning in the configuration in which the previous one ends. -/
theorem check_track (c c' : Curve) (h : c.check E = .ok c') (hw : c'.weight < NOT_FREE)
    (ha : Alternating (elemsOf c.seq)) :
    Track E c.start c'.seq c.goal ∧ elemsOf c'.seq = elemsOf c.seq := by
  by_cases h3 : c.seq.length < 3 ∨ c.seq.length > 4
  · have : c.check E = .ok { c with weight := NOT_FREE } := by
      unfold Curve.check; rw [if_pos h3]
    rw [this] at h; injection h with h; subst h; exact absurd hw (lt_irrefl _)
  by_cases hd : c.start.distTo c.goal < 2
  · have : c.check E = .ok { c with weight := NOT_FREE } := by
      unfold Curve.check; rw [if_neg h3, if_pos hd]
    rw [this] at h; injection h with h; subst h; exact absurd hw (lt_irrefl _)
  rcases check_shape E c h3 hd with ⟨a, l, b, hs, hc⟩ | ⟨a, m, b, hs, hc⟩ | ⟨a, m, n, b, hs, hc⟩ |
    ⟨a, s, t, b, hs, _, hc⟩ | ⟨_, hc⟩
  · rw [hc] at h; injection h with h; subst h
    rw [hs]; exact handleCSC_track hC hr0 a b l c.start c.goal hw
  · rw [hc] at h; injection h with h; subst h
    rw [hs] at ha ⊢
    simp only [elemsOf, List.map, elemOf, Alternating] at ha
    exact handleC3_track hC hr0 a m b c.start c.goal ha.1 ha.2.1 hw
  · rw [hc] at h; injection h with h; subst h
    rw [hs] at ha ⊢
    simp only [elemsOf, List.map, elemOf, Alternating] at ha
    exact handleC4_track hC hr0 a m n b c.start c.goal ha.1 ha.2.1 ha.2.2.1 hw
  · rw [hc] at h; injection h with h; subst h; exact absurd hw (lt_irrefl _)
  · rw [hc] at h; cases h

end

end PathPlanning.RS
