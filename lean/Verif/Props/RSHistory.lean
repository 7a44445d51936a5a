import Verif.Props.RSIter

/-!
# C62: earlier calls do not influence `find_path`
-/

noncomputable section

namespace PathPlanning.RS
open Spec

/-- A segment that has not been iterated. -/
def Seg.Clean : Seg → Prop
  | .circ c => c.iterating = false ∧ c.output = 0
  | .line l => l.iterating = false ∧ l.output = 0 ∧ l.segments = 0

/-- Two curves with the same elements, both not iterated, between the same poses. -/
structure Curve.Alike (c d : Curve) : Prop where
  elems : elemsOf c.seq = elemsOf d.seq
  cleanC : ∀ s ∈ c.seq, s.Clean
  cleanD : ∀ s ∈ d.seq, s.Clean
  it : c.iterating = d.iterating
  out : c.outNo = d.outNo

structure AgreeS (a b : Circ) : Prop where
  ori : a.ori = b.ori
  dir : a.dir = b.dir
  center : a.center = b.center
  radius : a.radius = b.radius
  aStart : a.aStart = b.aStart
  it : a.iterating = b.iterating
  out : a.output = b.output

structure AgreeE (a b : Circ) : Prop where
  ori : a.ori = b.ori
  dir : a.dir = b.dir
  center : a.center = b.center
  radius : a.radius = b.radius
  aEnd : a.aEnd = b.aEnd
  it : a.iterating = b.iterating
  out : a.output = b.output

structure AgreeM (a b : Circ) : Prop where
  ori : a.ori = b.ori
  dir : a.dir = b.dir
  radius : a.radius = b.radius
  it : a.iterating = b.iterating
  out : a.output = b.output

structure AgreeL (a b : Lin) : Prop where
  dir : a.dir = b.dir
  it : a.iterating = b.iterating
  out : a.output = b.output
  segs : a.segments = b.segments

theorem setEnd_congr (E : RSEnv) {a b : Circ} (h : AgreeS a b) (x : ℝ) :
    a.setEnd E x = b.setEnd E x := by
  obtain ⟨h1, h2, h3, h4, h5, h6, h7⟩ := h
  cases a; cases b; simp only at h1 h2 h3 h4 h5 h6 h7
  subst h1 h2 h3 h4 h5 h6 h7; rfl

theorem setStart_congr (E : RSEnv) {a b : Circ} (h : AgreeE a b) (x : ℝ) :
    a.setStart E x = b.setStart E x := by
  obtain ⟨h1, h2, h3, h4, h5, h6, h7⟩ := h
  cases a; cases b; simp only at h1 h2 h3 h4 h5 h6 h7
  subst h1 h2 h3 h4 h5 h6 h7; rfl

theorem setEndFor_congr (E : RSEnv) {a b : Circ} (h : AgreeS a b) (x : ℝ) :
    a.setEndFor E x = b.setEndFor E x := by
  obtain ⟨h1, h2, h3, h4, h5, h6, h7⟩ := h
  cases a; cases b; simp only at h1 h2 h3 h4 h5 h6 h7
  subst h1 h2 h3 h4 h5 h6 h7; rfl

theorem setStartFor_congr (E : RSEnv) {a b : Circ} (h : AgreeE a b) (x : ℝ) :
    a.setStartFor E x = b.setStartFor E x := by
  obtain ⟨h1, h2, h3, h4, h5, h6, h7⟩ := h
  cases a; cases b; simp only at h1 h2 h3 h4 h5 h6 h7
  subst h1 h2 h3 h4 h5 h6 h7; rfl

theorem mid_congr (E : RSEnv) {a b : Circ} (h : AgreeM a b) (p : P2) (x y : ℝ) :
    ((a.setCenter p).setStart E x).setEnd E y = ((b.setCenter p).setStart E x).setEnd E y := by
  obtain ⟨h1, h2, h4, h6, h7⟩ := h
  cases a; cases b; simp only at h1 h2 h4 h6 h7
  subst h1 h2 h4 h6 h7; rfl

theorem mid_congr' (E : RSEnv) {a b : Circ} (h : AgreeM a b) (p : P2) (x y : ℝ) :
    ((a.setCenter p).setEnd E x).setStart E y = ((b.setCenter p).setEnd E x).setStart E y := by
  obtain ⟨h1, h2, h4, h6, h7⟩ := h
  cases a; cases b; simp only at h1 h2 h4 h6 h7
  subst h1 h2 h4 h6 h7; rfl

theorem setPoints_congr {a b : Lin} (h : AgreeL a b) (p q : P2) : a.setPoints p q = b.setPoints p q := by
  obtain ⟨h1, h2, h3, h4⟩ := h
  cases a; cases b; simp only at h1 h2 h3 h4
  subst h1 h2 h3 h4; rfl

theorem commonTangent_congr (E : RSEnv) {a a' b b' : Circ} {l l' : Lin} (ha : AgreeS a a')
    (hb : AgreeE b b') (hl : AgreeL l l') : commonTangent E a l b = commonTangent E a' l' b' := by
  unfold commonTangent externalTangent internalTangent
  simp only [ha.center, ha.radius, ha.ori, hb.center, hb.radius, hb.ori, hl.dir,
    setEndFor_congr E ha, setStartFor_congr E hb, setEnd_congr E ha, setStart_congr E hb,
    setPoints_congr hl]

theorem tangentialCircle_congr (E : RSEnv) (p : Bool) {a a' m m' b b' : Circ} (ha : AgreeS a a')
    (hm : AgreeM m m') (hb : AgreeE b b') :
    tangentialCircle E p a m b = tangentialCircle E p a' m' b' := by
  unfold tangentialCircle
  simp only [ha.center, ha.radius, hb.center, setEnd_congr E ha, setStart_congr E hb, mid_congr E hm]

theorem tangentialDouble_congr (E : RSEnv) (p : Bool) {a a' m m' n n' b b' : Circ} (ha : AgreeS a a')
    (hm : AgreeM m m') (hn : AgreeM n n') (hb : AgreeE b b') :
    tangentialDouble E p a m n b = tangentialDouble E p a' m' n' b' := by
  unfold tangentialDouble
  simp only [ha.center, ha.radius, hb.center, setEnd_congr E ha, setStart_congr E hb,
    mid_congr E hn, mid_congr' E hm]

theorem symmetryHelper_congr (E : RSEnv) {a a' b b' : Circ} (md : ℝ) {cs cs' : List Circ}
    {cb : Bool → List Circ → List Circ} (h1 : a.center = a'.center) (h2 : a.radius = a'.radius)
    (h3 : b.center = b'.center) (hcb : cb true cs = cb true cs') :
    (symmetryHelper E a b cs md cb).1 = (symmetryHelper E a' b' cs' md cb).1 ∧
    ((symmetryHelper E a b cs md cb).1 = true →
      (symmetryHelper E a b cs md cb).2 = (symmetryHelper E a' b' cs' md cb).2) := by
  unfold symmetryHelper
  rw [h1, h2, h3]
  split_ifs
  · exact ⟨rfl, fun h => by cases h⟩
  · exact ⟨rfl, fun h => by cases h⟩
  · rw [hcb]; exact ⟨rfl, fun _ => rfl⟩

theorem initA_agree (E : RSEnv) (start : Pose) {a a' : Circ} (ho : a.ori = a'.ori)
    (hd : a.dir = a'.dir) (hi : a.iterating = a'.iterating) (hp : a.output = a'.output) :
    AgreeS (initA E start a) (initA E start a') := by
  refine ⟨ho, hd, ?_, rfl, ?_, hi, hp⟩
  · show pairFor E a.ori start = pairFor E a'.ori start; rw [ho]
  · show E.clamp (Circ.angleFor a.ori start.theta) = E.clamp (Circ.angleFor a'.ori start.theta)
    rw [ho]

theorem initZ_agree (E : RSEnv) (goal : Pose) {a a' : Circ} (ho : a.ori = a'.ori)
    (hd : a.dir = a'.dir) (hi : a.iterating = a'.iterating) (hp : a.output = a'.output) :
    AgreeE (initZ E goal a) (initZ E goal a') := by
  refine ⟨ho, hd, ?_, rfl, ?_, hi, hp⟩
  · show pairFor E a.ori goal = pairFor E a'.ori goal; rw [ho]
  · show E.clamp (Circ.angleFor a.ori goal.theta) = E.clamp (Circ.angleFor a'.ori goal.theta)
    rw [ho]

theorem circ_of_elem {s : Seg} {o : Ori} {d : Dir} (h : elemOf s = .turn o d) :
    ∃ c, s = .circ c ∧ c.ori = o ∧ c.dir = d := by
  cases s with
  | line l => simp [elemOf] at h
  | circ c => simp only [elemOf, Elem.turn.injEq] at h; exact ⟨c, rfl, h.1, h.2⟩

theorem line_of_elem {s : Seg} {d : Dir} (h : elemOf s = .straight d) :
    ∃ l, s = .line l ∧ l.dir = d := by
  cases s with
  | circ l => simp [elemOf] at h
  | line c => simp only [elemOf, Elem.straight.injEq] at h; exact ⟨c, rfl, h⟩

/-- Two alike curves are judged alike, and if they are accepted the results are identical. -/
theorem check_alike (E : RSEnv) (c d : Curve) (h : c.Alike d) (hs : c.start = d.start)
    (hg : c.goal = d.goal) :
    (c.check E = .ub ∧ d.check E = .ub) ∨
    ∃ k j, c.check E = .ok k ∧ d.check E = .ok j ∧ k.weight = j.weight ∧
      (k.weight < NOT_FREE → k = j) := by
  obtain ⟨hel, hcc, hcd, hit, hout⟩ := h
  have hlen : c.seq.length = d.seq.length := by
    have := congrArg List.length hel; simpa [elemsOf] using this
  by_cases h3 : c.seq.length < 3 ∨ c.seq.length > 4
  · right
    have e1 : c.check E = .ok { c with weight := NOT_FREE } := by unfold Curve.check; rw [if_pos h3]
    have e2 : d.check E = .ok { d with weight := NOT_FREE } := by
      unfold Curve.check; rw [if_pos (by rw [← hlen]; exact h3)]
    exact ⟨_, _, e1, e2, rfl, fun hw => absurd hw (lt_irrefl _)⟩
  by_cases hd : c.start.distTo c.goal < 2
  · right
    have e1 : c.check E = .ok { c with weight := NOT_FREE } := by
      unfold Curve.check; rw [if_neg h3, if_pos hd]
    have e2 : d.check E = .ok { d with weight := NOT_FREE } := by
      unfold Curve.check; rw [if_neg (by rw [← hlen]; exact h3), if_pos (by rw [← hs, ← hg]; exact hd)]
    exact ⟨_, _, e1, e2, rfl, fun hw => absurd hw (lt_irrefl _)⟩
  have h3' : ¬ (d.seq.length < 3 ∨ d.seq.length > 4) := by rw [← hlen]; exact h3
  have hd' : ¬ d.start.distTo d.goal < 2 := by rw [← hs, ← hg]; exact hd
  have hDs := check_shape E d h3' hd'
  have mkEq : ∀ (s : List Seg) (w : ℝ),
      ({ c with seq := s, weight := w } : Curve) = { d with seq := s, weight := w } := by
    intro s w; cases c; cases d; simp only at hs hg hit hout; subst hs hg hit hout; rfl
  rcases check_shape E c h3 hd with ⟨a, l, b, hsq, hc⟩ | ⟨a, m, b, hsq, hc⟩ | ⟨a, m, n, b, hsq, hc⟩ |
    ⟨a, s, t, b, hsq, hst, hc⟩ | ⟨hbad, hc⟩
  · right
    rw [hsq] at hel
    rcases hDs with ⟨a', l', b', hsq', hc'⟩ | ⟨a', m', b', hsq', hc'⟩ | ⟨a', m', n', b', hsq', hc'⟩ |
      ⟨a', s', t', b', hsq', hst', hc'⟩ | ⟨hbad', hc'⟩
    · rw [hsq'] at hel
      simp only [elemsOf, List.map, elemOf, List.cons.injEq, Elem.turn.injEq, Elem.straight.injEq,
        and_true] at hel
      have ka := hcc (.circ a) (by simp [hsq]); have ka' := hcd (.circ a') (by simp [hsq'])
      have kl := hcc (.line l) (by simp [hsq]); have kl' := hcd (.line l') (by simp [hsq'])
      have kb := hcc (.circ b) (by simp [hsq]); have kb' := hcd (.circ b') (by simp [hsq'])
      have gA := initA_agree E c.start hel.1.1 hel.1.2 (ka.1.trans ka'.1.symm) (ka.2.trans ka'.2.symm)
      have gB := initZ_agree E c.goal hel.2.2.1 hel.2.2.2 (kb.1.trans kb'.1.symm)
        (kb.2.trans kb'.2.symm)
      have gL : AgreeL l l' := ⟨hel.2.1, kl.1.trans kl'.1.symm, kl.2.1.trans kl'.2.1.symm,
        kl.2.2.trans kl'.2.2.symm⟩
      have hct := commonTangent_congr E gA gB gL
      refine ⟨_, _, hc, hc', ?_, ?_⟩
      · simp only; unfold handleCSC; rw [← hs, ← hg, hct]
        cases commonTangent E (initA E c.start a') l' (initZ E c.goal b') <;> rfl
      · intro hw
        simp only at hw
        have e : handleCSC E (initA E c.start a) l (initZ E c.goal b) =
            handleCSC E (initA E d.start a') l' (initZ E d.goal b') := by
          unfold handleCSC at hw ⊢
          rw [← hs, ← hg, ← hct]
          cases hx : commonTangent E (initA E c.start a) l (initZ E c.goal b) with
          | none => rw [hx] at hw; exact absurd hw (lt_irrefl _)
          | some r => rfl
        rw [e]; exact mkEq _ _
    · rw [hsq'] at hel; simp [elemsOf, elemOf] at hel
    · rw [hsq'] at hel; simp [elemsOf] at hel
    · rw [hsq'] at hel; simp [elemsOf] at hel
    · exfalso
      rcases hbad' with ⟨x, r, hx⟩ | ⟨x, r, hx⟩
      · rw [hx] at hel; simp [elemsOf, elemOf] at hel
      · rw [hx] at hel
        have := congrArg List.getLast? hel
        simp [elemsOf, elemOf] at this
  · right
    rw [hsq] at hel
    rcases hDs with ⟨a', l', b', hsq', hc'⟩ | ⟨a', m', b', hsq', hc'⟩ | ⟨a', m', n', b', hsq', hc'⟩ |
      ⟨a', s', t', b', hsq', hst', hc'⟩ | ⟨hbad', hc'⟩
    · rw [hsq'] at hel; simp [elemsOf, elemOf] at hel
    · rw [hsq'] at hel
      simp only [elemsOf, List.map, elemOf, List.cons.injEq, Elem.turn.injEq, and_true] at hel
      have ka := hcc (.circ a) (by simp [hsq]); have ka' := hcd (.circ a') (by simp [hsq'])
      have kl := hcc (.circ m) (by simp [hsq]); have kl' := hcd (.circ m') (by simp [hsq'])
      have kb := hcc (.circ b) (by simp [hsq]); have kb' := hcd (.circ b') (by simp [hsq'])
      have gA := initA_agree E c.start hel.1.1 hel.1.2 (ka.1.trans ka'.1.symm) (ka.2.trans ka'.2.symm)
      have gB := initZ_agree E c.goal hel.2.2.1 hel.2.2.2 (kb.1.trans kb'.1.symm)
        (kb.2.trans kb'.2.symm)
      have gM : AgreeM (m.setRadius E.radius) (m'.setRadius E.radius) := ⟨hel.2.1.1, hel.2.1.2, rfl,
        kl.1.trans kl'.1.symm, kl.2.trans kl'.2.symm⟩
      have hcb : tangentialCircleVec E true [initA E c.start a, m.setRadius E.radius, initZ E c.goal b] =
          tangentialCircleVec E true [initA E c.start a', m'.setRadius E.radius, initZ E c.goal b'] := by
        simp only [tangentialCircleVec, tangentialCircle_congr E true gA gM gB]
      obtain ⟨q1, q2⟩ := symmetryHelper_congr E (a := initA E c.start a) (b := initZ E c.goal b)
        (a' := initA E c.start a') (b' := initZ E c.goal b') 4
        (cb := tangentialCircleVec E) gA.center gA.radius gB.center hcb
      refine ⟨_, _, hc, hc', ?_, ?_⟩
      · simp only; unfold handleC3; simp only; rw [← hs, ← hg, ← q1]
        cases hx : (symmetryHelper E (initA E c.start a) (initZ E c.goal b)
          [initA E c.start a, m.setRadius E.radius, initZ E c.goal b] 4 (tangentialCircleVec E)).1
        · rfl
        · rw [q2 hx]
      · intro hw
        simp only at hw
        have e : handleC3 E (initA E c.start a) (m.setRadius E.radius) (initZ E c.goal b) =
            handleC3 E (initA E d.start a') (m'.setRadius E.radius) (initZ E d.goal b') := by
          unfold handleC3 at hw ⊢
          simp only at hw ⊢
          rw [← hs, ← hg, ← q1]
          cases hx : (symmetryHelper E (initA E c.start a) (initZ E c.goal b)
            [initA E c.start a, m.setRadius E.radius, initZ E c.goal b] 4 (tangentialCircleVec E)).1
          · rw [hx] at hw; exact absurd hw (by simp)
          · rw [q2 hx]
        rw [e]; exact mkEq _ _
    · rw [hsq'] at hel; simp [elemsOf] at hel
    · rw [hsq'] at hel; simp [elemsOf] at hel
    · exfalso
      rcases hbad' with ⟨x, r, hx⟩ | ⟨x, r, hx⟩
      · rw [hx] at hel; simp [elemsOf, elemOf] at hel
      · rw [hx] at hel
        have := congrArg List.getLast? hel
        simp [elemsOf, elemOf] at this
  · right
    rw [hsq] at hel
    rcases hDs with ⟨a', l', b', hsq', hc'⟩ | ⟨a', m', b', hsq', hc'⟩ | ⟨a', m', n', b', hsq', hc'⟩ |
      ⟨a', s', t', b', hsq', hst', hc'⟩ | ⟨hbad', hc'⟩
    · rw [hsq'] at hel; simp [elemsOf] at hel
    · rw [hsq'] at hel; simp [elemsOf] at hel
    · rw [hsq'] at hel
      simp only [elemsOf, List.map, elemOf, List.cons.injEq, Elem.turn.injEq, and_true] at hel
      have ka := hcc (.circ a) (by simp [hsq]); have ka' := hcd (.circ a') (by simp [hsq'])
      have kl := hcc (.circ m) (by simp [hsq]); have kl' := hcd (.circ m') (by simp [hsq'])
      have kn := hcc (.circ n) (by simp [hsq]); have kn' := hcd (.circ n') (by simp [hsq'])
      have kb := hcc (.circ b) (by simp [hsq]); have kb' := hcd (.circ b') (by simp [hsq'])
      have gA := initA_agree E c.start hel.1.1 hel.1.2 (ka.1.trans ka'.1.symm) (ka.2.trans ka'.2.symm)
      have gB := initZ_agree E c.goal hel.2.2.2.1 hel.2.2.2.2 (kb.1.trans kb'.1.symm)
        (kb.2.trans kb'.2.symm)
      have gM : AgreeM (m.setRadius E.radius) (m'.setRadius E.radius) := ⟨hel.2.1.1, hel.2.1.2, rfl,
        kl.1.trans kl'.1.symm, kl.2.trans kl'.2.symm⟩
      have gN : AgreeM (n.setRadius E.radius) (n'.setRadius E.radius) := ⟨hel.2.2.1.1, hel.2.2.1.2, rfl,
        kn.1.trans kn'.1.symm, kn.2.trans kn'.2.symm⟩
      have hcb : tangentialDoubleVec E true [initA E c.start a, m.setRadius E.radius,
            n.setRadius E.radius, initZ E c.goal b] =
          tangentialDoubleVec E true [initA E c.start a', m'.setRadius E.radius,
            n'.setRadius E.radius, initZ E c.goal b'] := by
        simp only [tangentialDoubleVec, tangentialDouble_congr E true gA gM gN gB]
      obtain ⟨q1, q2⟩ := symmetryHelper_congr E (a := initA E c.start a) (b := initZ E c.goal b)
        (a' := initA E c.start a') (b' := initZ E c.goal b') 6
        (cb := tangentialDoubleVec E) gA.center gA.radius gB.center hcb
      refine ⟨_, _, hc, hc', ?_, ?_⟩
      · simp only; unfold handleC4; simp only; rw [← hs, ← hg, ← q1]
        cases hx : (symmetryHelper E (initA E c.start a) (initZ E c.goal b)
          [initA E c.start a, m.setRadius E.radius, n.setRadius E.radius, initZ E c.goal b] 6
          (tangentialDoubleVec E)).1
        · rfl
        · rw [q2 hx]
      · intro hw
        simp only at hw
        have e : handleC4 E (initA E c.start a) (m.setRadius E.radius) (n.setRadius E.radius)
              (initZ E c.goal b) =
            handleC4 E (initA E d.start a') (m'.setRadius E.radius) (n'.setRadius E.radius)
              (initZ E d.goal b') := by
          unfold handleC4 at hw ⊢
          simp only at hw ⊢
          rw [← hs, ← hg, ← q1]
          cases hx : (symmetryHelper E (initA E c.start a) (initZ E c.goal b)
            [initA E c.start a, m.setRadius E.radius, n.setRadius E.radius, initZ E c.goal b] 6
            (tangentialDoubleVec E)).1
          · rw [hx] at hw; exact absurd hw (by simp)
          · rw [q2 hx]
        rw [e]; exact mkEq _ _
    · exfalso
      rw [hsq'] at hel
      rcases hst' with ⟨x, hx⟩ | ⟨x, hx⟩ <;> subst hx <;> simp [elemsOf, elemOf] at hel
    · exfalso
      rcases hbad' with ⟨x, r, hx⟩ | ⟨x, r, hx⟩
      · rw [hx] at hel; simp [elemsOf, elemOf] at hel
      · rw [hx] at hel
        have := congrArg List.getLast? hel
        simp [elemsOf, elemOf] at this
  · right
    rw [hsq] at hel
    rcases hDs with ⟨a', l', b', hsq', hc'⟩ | ⟨a', m', b', hsq', hc'⟩ | ⟨a', m', n', b', hsq', hc'⟩ |
      ⟨a', s', t', b', hsq', hst', hc'⟩ | ⟨hbad', hc'⟩
    · rw [hsq'] at hel; simp [elemsOf] at hel
    · rw [hsq'] at hel; simp [elemsOf] at hel
    · exfalso
      rw [hsq'] at hel
      rcases hst with ⟨x, hx⟩ | ⟨x, hx⟩ <;> subst hx <;> simp [elemsOf, elemOf] at hel
    · exact ⟨_, _, hc, hc', rfl, fun hw => absurd hw (lt_irrefl _)⟩
    · exfalso
      rcases hbad' with ⟨x, r, hx⟩ | ⟨x, r, hx⟩
      · rw [hx] at hel; simp [elemsOf, elemOf] at hel
      · rw [hx] at hel
        have := congrArg List.getLast? hel
        simp [elemsOf, elemOf] at this
  · left
    refine ⟨hc, ?_⟩
    apply check_ub E d (by omega) (by linarith)
    rw [← hel]
    rcases hbad with ⟨x, r, hx⟩ | ⟨x, r, hx⟩
    · exact Or.inl ⟨_, elemsOf r, by rw [hx]; rfl⟩
    · exact Or.inr ⟨elemsOf x, r.dir, by rw [hx]; simp [elemsOf, elemOf]⟩

/-! ### What a test keeps -/

/-- What a test of a curve leaves unchanged in a segment: its element and its iteration state. -/
def sig : Seg → Elem × Bool × Int × Int
  | .circ c => (.turn c.ori c.dir, c.iterating, c.output, 0)
  | .line l => (.straight l.dir, l.iterating, l.output, l.segments)

theorem keep_C3 (E : RSEnv) (p : Bool) (cs : List Circ) :
    (tangentialCircleVec E p cs).map (fun c => sig (.circ c)) = cs.map (fun c => sig (.circ c)) := by
  unfold tangentialCircleVec; split <;> rfl

theorem keep_C4 (E : RSEnv) (p : Bool) (cs : List Circ) :
    (tangentialDoubleVec E p cs).map (fun c => sig (.circ c)) = cs.map (fun c => sig (.circ c)) := by
  unfold tangentialDoubleVec; split <;> rfl

theorem keep_sym (E : RSEnv) (a b : Circ) (md : ℝ) (cs : List Circ)
    (cb : Bool → List Circ → List Circ)
    (hcb : ∀ p cs, (cb p cs).map (fun c => sig (.circ c)) = cs.map (fun c => sig (.circ c))) :
    (symmetryHelper E a b cs md cb).2.map (fun c => sig (.circ c)) =
      cs.map (fun c => sig (.circ c)) := by
  unfold symmetryHelper
  simp only
  split_ifs <;> simp [hcb]

theorem keep_CSC (E : RSEnv) (a : Circ) (l : Lin) (b : Circ) :
    (handleCSC E a l b).1.map sig = [.circ a, .line l, .circ b].map sig := by
  unfold handleCSC commonTangent
  by_cases h : (a.center - b.center).length < a.radius + b.radius
  · rw [if_pos h]
  · rw [if_neg h]
    split_ifs <;> rfl

theorem check_sig (E : RSEnv) (c k : Curve) (h : c.check E = .ok k) :
    k.seq.map sig = c.seq.map sig ∧ k.iterating = c.iterating ∧ k.outNo = c.outNo := by
  by_cases h3 : c.seq.length < 3 ∨ c.seq.length > 4
  · have e1 : c.check E = .ok { c with weight := NOT_FREE } := by unfold Curve.check; rw [if_pos h3]
    rw [e1] at h; injection h with h; subst h; exact ⟨rfl, rfl, rfl⟩
  by_cases hd : c.start.distTo c.goal < 2
  · have e1 : c.check E = .ok { c with weight := NOT_FREE } := by
      unfold Curve.check; rw [if_neg h3, if_pos hd]
    rw [e1] at h; injection h with h; subst h; exact ⟨rfl, rfl, rfl⟩
  rcases check_shape E c h3 hd with ⟨a, l, b, hsq, hc⟩ | ⟨a, m, b, hsq, hc⟩ | ⟨a, m, n, b, hsq, hc⟩ |
    ⟨a, s, t, b, hsq, hst, hc⟩ | ⟨hbad, hc⟩
  · rw [hc] at h; injection h with h; subst h
    refine ⟨?_, rfl, rfl⟩
    simp only
    rw [keep_CSC, hsq]; rfl
  · rw [hc] at h; injection h with h; subst h
    refine ⟨?_, rfl, rfl⟩
    simp only [handleC3, List.map_map]
    rw [hsq]
    exact keep_sym E _ _ _ _ _ (keep_C3 E)
  · rw [hc] at h; injection h with h; subst h
    refine ⟨?_, rfl, rfl⟩
    simp only [handleC4, List.map_map]
    rw [hsq]
    exact keep_sym E _ _ _ _ _ (keep_C4 E)
  · rw [hc] at h; injection h with h; subst h
    refine ⟨?_, rfl, rfl⟩
    rw [hsq]
    cases s <;> cases t <;> rfl
  · rw [hc] at h; cases h

theorem elems_of_sig (l : List Seg) : elemsOf l = (l.map sig).map Prod.fst := by
  unfold elemsOf; rw [List.map_map]
  apply List.map_congr_left; intro s _; cases s <;> rfl

theorem clean_iff_sig (s : Seg) : s.Clean ↔ (sig s).2 = (false, 0, 0) := by
  cases s <;> simp [Seg.Clean, sig]

theorem clean_of_sig {l l' : List Seg} (h : l'.map sig = l.map sig) (hc : ∀ s ∈ l, s.Clean) :
    ∀ s ∈ l', s.Clean := by
  intro s hs
  rw [clean_iff_sig]
  have : sig s ∈ l.map sig := by rw [← h]; exact List.mem_map_of_mem hs
  obtain ⟨t, ht, e⟩ := List.mem_map.1 this
  rw [← e]; exact (clean_iff_sig t).1 (hc t ht)

/-! ### The search -/

/-- Two lists of curves that are pairwise alike give the same best curve. -/
theorem findLoop_congr (E : RSEnv) (mx : Option ℝ) (start goal : Pose) :
    ∀ (cs ds : List Curve), List.Forall₂ Curve.Alike cs ds →
    ∀ (acc acc' : List Curve) (best : Option Curve) (bw : ℝ), bw ≤ NOT_FREE →
      (findLoop E mx start goal cs acc best bw = .ub ∧ findLoop E mx start goal ds acc' best bw = .ub) ∨
      ∃ r r', findLoop E mx start goal cs acc best bw = .ok r ∧
        findLoop E mx start goal ds acc' best bw = .ok r' ∧ r.2 = r'.2 := by
  intro cs ds h
  induction h with
  | nil => intro acc acc' best bw _; exact Or.inr ⟨_, _, rfl, rfl, rfl⟩
  | @cons c d cs ds hcd _ ih =>
    intro acc acc' best bw hbw
    have hal : Curve.Alike { c with start := start, goal := goal }
        { d with start := start, goal := goal } :=
      ⟨hcd.elems, hcd.cleanC, hcd.cleanD, hcd.it, hcd.out⟩
    unfold findLoop
    rcases check_alike E _ _ hal rfl rfl with ⟨h1, h2⟩ | ⟨k, j, h1, h2, hw, hkj⟩
    · left; rw [h1, h2]; exact ⟨rfl, rfl⟩
    · rw [h1, h2]
      simp only [CRes.ok_bind]
      by_cases hlt : k.weight < bw
      · rw [if_pos hlt, if_pos (by rw [← hw]; exact hlt)]
        have e : k = j := hkj (lt_of_lt_of_le hlt hbw)
        subst e
        cases mx with
        | none => left; exact ⟨rfl, rfl⟩
        | some m =>
          simp only
          by_cases ha : k.curveArc < m
          · rw [if_pos ha, if_pos ha]; exact ih _ _ _ _ (hlt.le.trans hbw)
          · rw [if_neg ha, if_neg ha]; exact ih _ _ _ _ hbw
      · rw [if_neg hlt, if_neg (by rw [← hw]; exact hlt)]
        exact ih _ _ _ _ hbw

/-- A generator none of whose curves has been read: what the constructor and `parse` produce, and what
`find_path` keeps (it returns copies). -/
def Gen.Fresh (g : Gen) : Prop := ∀ c ∈ g.curves, ∀ s ∈ c.seq, s.Clean

theorem parseLoop_fresh : ∀ (l : List Char) (s t : PState), (∀ x ∈ s.segs, x.Clean) →
    parseLoop s l = .go t → ∀ x ∈ t.segs, x.Clean := by
  intro l
  induction l with
  | nil => intro s t hs h; simp only [parseLoop, PStep.go.injEq] at h; subst h; exact hs
  | cons ch l ih =>
    intro s t hs h
    unfold parseLoop at h
    cases hp : parseChar s ch with
    | error => rw [hp] at h; cases h
    | ub => rw [hp] at h; cases h
    | go s' =>
      rw [hp] at h
      refine ih s' t ?_ h
      unfold parseChar at hp
      split_ifs at hp
      all_goals first
        | cases hp; done
        | (injection hp with hp; subst hp; first | exact hs |
            (intro x hx; simp only [List.mem_append, List.mem_singleton] at hx
             rcases hx with hx | rfl
             · exact hs x hx
             · first | exact ⟨rfl, rfl⟩ | exact ⟨rfl, rfl, rfl⟩))
        | (split at hp
           all_goals first | (cases hp; done) | (injection hp with hp; subst hp; exact hs))

theorem new_fresh : Gen.Fresh {} := by intro c hc; cases hc

theorem parse_fresh (g g' : Gen) (l : List Char) (b : Bool) (hg : g.Fresh)
    (h : g.parse l = .ok (b, g')) : g'.Fresh := by
  unfold Gen.parse at h
  split at h
  · cases h
  · injection h with h; injection h with _ h; subst h; exact hg
  · rename_i s hs
    split_ifs at h
    · injection h with h; injection h with _ h; subst h; exact hg
    · injection h with h; injection h with _ h; subst h
      intro c hc
      rcases List.mem_append.1 hc with hc | hc
      · exact hg c hc
      · rw [List.mem_singleton.1 hc]
        exact parseLoop_fresh l {} s (by intro x hx; cases hx) hs

theorem findLoop_alike (E : RSEnv) (mx : Option ℝ) (start goal : Pose) :
    ∀ (cs acc : List Curve) (best : Option Curve) (bw : ℝ) (r : List Curve × Option Curve),
      (∀ c ∈ cs, ∀ s ∈ c.seq, s.Clean) →
      findLoop E mx start goal cs acc best bw = .ok r →
      ∃ ds, r.1 = acc ++ ds ∧ List.Forall₂ Curve.Alike cs ds := by
  intro cs
  induction cs with
  | nil =>
    intro acc best bw r _ h
    simp only [findLoop, CRes.ok.injEq] at h; subst h
    exact ⟨[], by simp, .nil⟩
  | cons c cs ih =>
    intro acc best bw r hc h
    unfold findLoop at h
    simp only [CRes.bind_eq_ok] at h
    obtain ⟨k, hk, h⟩ := h
    obtain ⟨k1, k2, k3⟩ := check_sig E _ k hk
    have hal : Curve.Alike c k := by
      have hcc := hc c (by simp)
      exact ⟨by rw [elems_of_sig, elems_of_sig, k1], hcc, clean_of_sig k1 hcc, k2.symm, k3.symm⟩
    have fin : ∀ best' bw', findLoop E mx start goal cs (acc ++ [k]) best' bw' = .ok r →
        ∃ ds, r.1 = acc ++ ds ∧ List.Forall₂ Curve.Alike (c :: cs) ds := by
      intro best' bw' h'
      obtain ⟨ds, e, hf⟩ := ih _ _ _ _ (fun c' hc' => hc c' (by simp [hc'])) h'
      exact ⟨k :: ds, by rw [e]; simp, .cons hal hf⟩
    split_ifs at h
    · cases mx with
      | none => cases h
      | some m =>
        simp only at h
        split_ifs at h
        · exact fin _ _ h
        · exact fin _ _ h
    · exact fin _ _ h

theorem findPath_alike (g g' : Gen) (clamp : ℝ → ℝ) (start goal : Pose) (map : MapIf) (ig : Bool)
    (r : Option Curve) (hg : g.Fresh) (h : g.findPath clamp start goal map ig = .ok (g', r)) :
    g' = { g with curves := g'.curves } ∧ List.Forall₂ Curve.Alike g.curves g'.curves := by
  unfold Gen.findPath at h
  cases hcs : g.curves with
  | nil => rw [hcs] at h; cases h
  | cons c0 cs0 =>
    rw [hcs] at h
    simp only [CRes.bind_eq_ok] at h
    obtain ⟨r', h1, h2⟩ := h
    simp only [CRes.pure_eq, CRes.ok.injEq, Prod.mk.injEq] at h2
    obtain ⟨rfl, _⟩ := h2
    obtain ⟨ds, e, hf⟩ := findLoop_alike _ _ _ _ _ _ _ _ _ (by rw [← hcs]; exact hg) h1
    simp only [List.nil_append] at e
    exact ⟨rfl, by simpa only [e] using hf⟩

/-- The result part of `find_path` (without the generator's new state). -/
def found : CRes (Gen × Option Curve) → CRes (Option Curve)
  | .ok r => .ok r.2
  | .throw e => .throw e
  | .ub => .ub

/-- **C62.** An earlier call of `find_path` — for any start, goal, map and flag — does not influence what
a later call returns: not whether it is defined, not whether it finds a curve, and not the curve. -/
theorem findPath_history (g g' : Gen) (clamp : ℝ → ℝ) (s₁ g₁ : Pose) (m₁ : MapIf) (i₁ : Bool)
    (r₁ : Option Curve) (hg : g.Fresh) (h : g.findPath clamp s₁ g₁ m₁ i₁ = .ok (g', r₁)) :
    g'.Fresh ∧ ∀ (start goal : Pose) (map : MapIf) (ig : Bool),
      found (g'.findPath clamp start goal map ig) = found (g.findPath clamp start goal map ig) := by
  obtain ⟨e, hf⟩ := findPath_alike g g' clamp s₁ g₁ m₁ i₁ r₁ hg h
  refine ⟨?_, ?_⟩
  · intro c hc
    obtain ⟨i, hi, rfl⟩ := List.getElem_of_mem hc
    exact (List.Forall₂.get hf (by rw [hf.length_eq]; exact hi) hi).cleanD
  · intro start goal map ig
    have henv : g'.env clamp map ig = g.env clamp map ig := by rw [e]; rfl
    have hmx : g'.maxArc = g.maxArc := by rw [e]
    unfold Gen.findPath
    rw [henv, hmx]
    cases hcs : g.curves with
    | nil =>
      rw [hcs] at hf
      rw [List.forall₂_nil_left_iff.1 hf]
    | cons c0 cs0 =>
      rw [hcs] at hf
      cases hcs' : g'.curves with
      | nil => rw [hcs'] at hf; cases hf
      | cons d0 ds0 =>
        rw [hcs'] at hf
        simp only
        rcases findLoop_congr (g.env clamp map ig) g.maxArc start goal _ _ hf [] [] none NOT_FREE le_rfl
          with ⟨h1, h2⟩ | ⟨r, r', h1, h2, h3⟩
        · rw [h1, h2]; rfl
        · rw [h1, h2]; simp only [CRes.ok_bind, CRes.pure_eq, found, h3]

/-- **C62**, for whole histories: after any sequence of successful calls the answers are those of the
generator as it was built. -/
theorem findPath_histories (clamp : ℝ → ℝ) (g : Gen) (hg : g.Fresh)
    (hist : List (Pose × Pose × MapIf × Bool)) (g' : Gen)
    (h : hist.foldlM (fun (x : Gen) q => do
      let r ← x.findPath clamp q.1 q.2.1 q.2.2.1 q.2.2.2
      pure r.1) g = CRes.ok g') :
    ∀ (start goal : Pose) (map : MapIf) (ig : Bool),
      found (g'.findPath clamp start goal map ig) = found (g.findPath clamp start goal map ig) := by
  induction hist generalizing g with
  | nil =>
    simp only [List.foldlM_nil, CRes.pure_eq, CRes.ok.injEq] at h
    subst h; intros; rfl
  | cons q hist ih =>
    simp only [List.foldlM_cons, CRes.bind_eq_ok] at h
    obtain ⟨g1, ⟨⟨g2, r⟩, h1, h2⟩, h3⟩ := h
    simp only [CRes.pure_eq, CRes.ok.injEq] at h2
    subst h2
    obtain ⟨f, hh⟩ := findPath_history g g2 clamp _ _ _ _ r hg h1
    intro start goal map ig
    rw [ih g2 f h3, hh]

/-- **Concrete history.** The generator of `findPath_example` is fresh, its first search succeeds, and
every later search behaves as on the generator just built. -/
theorem findPath_history_example : ∃ (clamp : ℝ → ℝ) (g g' : Gen) (k : Curve),
    g.Fresh ∧ g.findPath clamp ⟨0, 0, 0⟩ ⟨10, 0, 0⟩ freeMap false = .ok (g', some k) ∧
    ∃ g'', g'.findPath clamp ⟨0, 0, 0⟩ ⟨10, 0, 0⟩ freeMap false = .ok (g'', some k) := by
  obtain ⟨clamp, g, g', k, hp, _, _, hf⟩ := findPath_example
  have hg : g.Fresh := parse_fresh _ g _ false (by intro c hc; cases hc) hp
  refine ⟨clamp, g, g', k, hg, hf, ?_⟩
  have := (findPath_history g g' clamp _ _ _ _ _ hg hf).2 ⟨0, 0, 0⟩ ⟨10, 0, 0⟩ freeMap false
  rw [hf] at this
  cases h : g'.findPath clamp ⟨0, 0, 0⟩ ⟨10, 0, 0⟩ freeMap false with
  | ok r => rw [h] at this; simp only [found, CRes.ok.injEq] at this; exact ⟨r.1, by rw [← this]⟩
  | throw e => rw [h] at this; simp [found] at this
  | ub => rw [h] at this; simp [found] at this

end PathPlanning.RS
