import Verif.Props.RSOpt4

/-!
# What a change of the map does to the search for Reeds-Shepp curves (C111)
-/

namespace PathPlanning.RS
open Spec
set_option linter.unusedSectionVars false

/-- The same map with other cell values; which cells are free stays. -/
def MapIf.revalue (M : MapIf) (v : Int → Int → Nat) : MapIf := { M with value := v }

/-- The same map with other free cells. -/
def MapIf.refree (M : MapIf) (f : Int → Int → Bool) : MapIf := { M with free := f }

/-- The same settings on another map. -/
def RSEnv.on (E : RSEnv) (M : MapIf) : RSEnv := { E with map := M }

/-! ### Values -/

section values
variable {E : RSEnv} {v : Int → Int → Nat}

theorem testPixel_value (c : Circ) (cx cy x y : Int) (w w' : ℝ) :
    (c.testPixel E cx cy x y w).1 = (c.testPixel (E.on (E.map.revalue v)) cx cy x y w').1 := by
  unfold Circ.testPixel
  have e1 : (E.on (E.map.revalue v)).map.inMap x y = E.map.inMap x y := rfl
  have e2 : c.onSegment (E.on (E.map.revalue v)) cx cy x y = c.onSegment E cx cy x y := rfl
  have e3 : (E.on (E.map.revalue v)).map.free x y = E.map.free x y := rfl
  have e4 : (E.on (E.map.revalue v)).ignore = E.ignore := rfl
  rw [e1, e2, e3, e4]
  split_ifs <;> rfl

theorem test4_value (c : Circ) (cx cy x y : Int) (w w' : ℝ) :
    (c.test4 E cx cy x y w).1 = (c.test4 (E.on (E.map.revalue v)) cx cy x y w').1 := by
  unfold Circ.test4
  simp only
  congr 1
  · congr 1
    · congr 1
      · exact testPixel_value ..
      · split_ifs
        · exact testPixel_value ..
        · rfl
    · split_ifs <;> first | exact testPixel_value .. | rfl
  · split_ifs <;> first | exact testPixel_value .. | rfl

theorem test8_value (c : Circ) (cx cy x y : Int) (w w' : ℝ) :
    (c.test8 E cx cy x y w).1 = (c.test8 (E.on (E.map.revalue v)) cx cy x y w').1 := by
  unfold Circ.test8
  simp only
  split_ifs
  · simp only
    rw [test4_value (v := v) c cx cy x y w w', test4_value (v := v) c cx cy y x _ (c.test4 (E.on (E.map.revalue v)) cx cy x y w').2]
  · exact test4_value ..

theorem checkLoop_value (c : Circ) (cx cy : Int) : ∀ (n : Nat) (e x y : Int) (f : Bool) (w w' : ℝ),
    (c.checkLoop E cx cy n e x y f w).map Prod.fst = (c.checkLoop (E.on (E.map.revalue v)) cx cy n e x y f w').map Prod.fst := by
  intro n
  induction n with
  | zero => intros; rfl
  | succ n ih =>
    intro e x y f w w'
    unfold Circ.checkLoop
    simp only
    rw [← test8_value c cx cy x y w w']
    split_ifs
    · exact ih ..
    · exact ih ..
    · rfl

theorem Circ.weight_value (hu : E.useMapCost = false) (c : Circ) : c.weight E = c.weight (E.on (E.map.revalue v)) := by
  unfold Circ.weight Circ.checkCircle
  simp only
  have e1 : (E.on (E.map.revalue v)).ignore = E.ignore := rfl
  have e2 : (E.on (E.map.revalue v)).useMapCost = E.useMapCost := rfl
  have e3 : (E.on (E.map.revalue v)).dirCost c.dir = E.dirCost c.dir := rfl
  have e4 : (E.on (E.map.revalue v)).costC = E.costC := rfl
  rw [e1, e2, e3, e4, hu]
  have := checkLoop_value (E := E) (v := v) c (truncC c.center.x) (truncC c.center.y) ((truncC c.radius).toNat + 2) (-truncC c.radius)
    (truncC c.radius) 0 true 0 0
  generalize c.checkLoop E _ _ _ _ _ _ _ _ = a at this ⊢
  generalize c.checkLoop (E.on (E.map.revalue v)) _ _ _ _ _ _ _ _ = b at this ⊢
  have h1 : (a.getD (false, 0)).1 = (b.getD (false, 0)).1 := by
    cases a <;> cases b <;> simp at this ⊢
    exact this
  rw [h1]
  rfl

theorem Lin.loop_value (x1 y1 dx dy sx sy : Int) : ∀ (n : Nat) (x y e : Int) (w w' : ℝ),
    (Lin.loop E x1 y1 dx dy sx sy n x y e w).map Prod.fst = (Lin.loop (E.on (E.map.revalue v)) x1 y1 dx dy sx sy n x y e w').map Prod.fst := by
  intro n
  induction n with
  | zero => intros; rfl
  | succ n ih =>
    intro x y e w w'
    unfold Lin.loop
    have e1 : (E.on (E.map.revalue v)).map.inMap x y = E.map.inMap x y := rfl
    have e3 : (E.on (E.map.revalue v)).map.free x y = E.map.free x y := rfl
    have e4 : (E.on (E.map.revalue v)).ignore = E.ignore := rfl
    rw [e1, e3, e4]
    simp only
    by_cases h1 : (E.map.inMap x y && (!E.map.free x y && !E.ignore)) = true
    · rw [if_pos h1, if_pos h1]; rfl
    · rw [if_neg h1, if_neg h1]
      by_cases h2 : x = x1 ∧ y = y1
      · rw [if_pos h2, if_pos h2]; rfl
      · rw [if_neg h2, if_neg h2]
        exact ih ..

theorem Lin.weight_value (hu : E.useMapCost = false) (l : Lin) : l.weight E = l.weight (E.on (E.map.revalue v)) := by
  unfold Lin.weight Lin.check
  simp only
  have e0 : ∀ x y, (E.on (E.map.revalue v)).map.inMap x y = E.map.inMap x y := fun _ _ => rfl
  have e1 : (E.on (E.map.revalue v)).ignore = E.ignore := rfl
  have e2 : (E.on (E.map.revalue v)).useMapCost = E.useMapCost := rfl
  have e3 : (E.on (E.map.revalue v)).dirCost l.dir = E.dirCost l.dir := rfl
  have e4 : (E.on (E.map.revalue v)).costS = E.costS := rfl
  rw [e0, e1, e2, e3, e4, hu]
  have := Lin.loop_value (E := E) (v := v) (truncC l.stop.x) (truncC l.stop.y) |truncC l.stop.x - truncC l.start.x|
    (-|truncC l.stop.y - truncC l.start.y|) (if truncC l.start.x < truncC l.stop.x then 1 else -1)
    (if truncC l.start.y < truncC l.stop.y then 1 else -1)
    ((truncC l.stop.x - truncC l.start.x).natAbs + (truncC l.stop.y - truncC l.start.y).natAbs + 1) (truncC l.start.x) (truncC l.start.y)
    (|truncC l.stop.x - truncC l.start.x| + -|truncC l.stop.y - truncC l.start.y|) 0 0
  generalize Lin.loop E _ _ _ _ _ _ _ _ _ _ _ = a at this ⊢
  generalize Lin.loop (E.on (E.map.revalue v)) _ _ _ _ _ _ _ _ _ _ _ = b at this ⊢
  have h1 : (a.getD (false, 0)).1 = (b.getD (false, 0)).1 := by
    cases a <;> cases b <;> simp at this ⊢
    exact this
  rw [h1]
  rfl

theorem sumWeights_value (hu : E.useMapCost = false) : sumWeights E = sumWeights (E.on (E.map.revalue v)) := by
  funext cs
  unfold sumWeights
  congr 1
  funext w c
  rw [Circ.weight_value (v := v) hu c]

theorem check_value (hu : E.useMapCost = false) (c : Curve) : c.check E = c.check (E.on (E.map.revalue v)) := by
  have hs : ∀ a b cs md, ∀ cb : Bool → List Circ → List Circ, symmetryHelper E a b cs md cb =
      symmetryHelper (E.on (E.map.revalue v)) a b cs md cb := by
    intro a b cs md cb
    unfold symmetryHelper
    rw [sumWeights_value (v := v) hu]
  have hh : handleSequence E = handleSequence (E.on (E.map.revalue v)) := by
    funext s
    unfold handleSequence handleC3 handleC4 handleCSC
    simp only [hs, sumWeights_value (v := v) hu, Circ.weight_value (v := v) hu, Lin.weight_value (v := v) hu]
    rfl
  unfold Curve.check
  rw [hh]
  rfl

/-- **C111 (curves).**  Without map costs `find_path` returns the same curve and leaves the same generator on maps with the
same free cells, whatever the values of the cells. -/
theorem findPath_values (g : Gen) (hu : g.useMapCost = false) (clamp : ℝ → ℝ) (start goal : Pose) (map : MapIf) (v : Int → Int → Nat) (ig : Bool) :
    g.findPath clamp start goal map ig = g.findPath clamp start goal (map.revalue v) ig := by
  have hl : ∀ (cs acc : List Curve) best bw, findLoop (g.env clamp map ig) g.maxArc start goal cs acc best bw =
      findLoop (g.env clamp (map.revalue v) ig) g.maxArc start goal cs acc best bw := by
    intro cs
    induction cs with
    | nil => intros; rfl
    | cons c cs ih =>
      intro acc best bw
      unfold findLoop
      rw [check_value (E := g.env clamp map ig) (v := v) hu]
      simp only [ih]
      rfl
  unfold Gen.findPath
  simp only [hl]

end values

/-! ### Obstacles removed -/

section freed
variable {E : RSEnv} {f : Int → Int → Bool} (hf : ∀ x y, E.map.free x y = true → f x y = true)
include hf

theorem Circ.weight_freed (c : Circ) (hr : 1 ≤ c.radius) (h : c.weight E < NOT_FREE) : c.weight (E.on (E.map.refree f)) = c.weight E := by
  obtain ⟨cells, -, -, hs⟩ := checkCircle_spec (truncC c.center.x) (truncC c.center.y) (truncC c.radius) (truncC_of_one_le hr)
  obtain ⟨s, e1, e2, e3⟩ := hs E c
  obtain ⟨s', e1', e2', e3'⟩ := hs (E.on (E.map.refree f)) c
  have hsum : s'.2 = s.2 := by rw [e3, e3']; rfl
  unfold Circ.weight at h ⊢
  simp only at h ⊢
  rw [e1, Option.getD_some] at h
  rw [e1', e1, Option.getD_some, Option.getD_some, hsum]
  have hi : (E.on (E.map.refree f)).ignore = E.ignore := rfl
  rw [hi]
  cases hig : E.ignore with
  | true => simp only [Bool.true_or, if_true]; rfl
  | false =>
    rw [hig] at h
    simp only [Bool.false_or] at h ⊢
    by_cases h1 : s.1 = true
    · have h2 : s'.1 = true := by
        rw [e2']
        intro p hp
        obtain ⟨k1, k2⟩ := e2.1 h1 p hp
        refine ⟨k1, fun ho => ?_⟩
        rcases k2 ho with k | k
        · exact .inl k
        · exact .inr (hf _ _ k)
      rw [if_pos h1, if_pos h2]; rfl
    · rw [if_neg h1] at h; exact absurd h (lt_irrefl _)

theorem Lin.weight_freed (l : Lin) (h : l.weight E < NOT_FREE) : l.weight (E.on (E.map.refree f)) = l.weight E := by
  obtain ⟨cells, -, hs⟩ := lineCheck_spec (truncC l.start.x) (truncC l.start.y) (truncC l.stop.x) (truncC l.stop.y)
  obtain ⟨s, e1, e2, e3⟩ := hs E
  obtain ⟨s', e1', e2', e3'⟩ := hs (E.on (E.map.refree f))
  unfold Lin.weight at h ⊢
  simp only at h ⊢
  rw [e1, Option.getD_some] at h
  rw [e1', e1, Option.getD_some, Option.getD_some]
  have hi : (E.on (E.map.refree f)).ignore = E.ignore := rfl
  have hin : (E.on (E.map.refree f)).map.inMap (truncC l.start.x) (truncC l.start.y) = E.map.inMap (truncC l.start.x) (truncC l.start.y) := rfl
  rw [hi, hin]
  by_cases h0 : (!E.map.inMap (truncC l.start.x) (truncC l.start.y) && !E.ignore) = true
  · rw [if_pos h0] at h; exact absurd h (lt_irrefl _)
  rw [if_neg h0] at h
  rw [if_neg h0, if_neg h0]
  by_cases h1 : s.1 = true
  · have h2 : s'.1 = true := by
      rw [e2']
      rcases e2.1 h1 with k | k
      · exact .inl k
      · exact .inr fun p hp hm => hf _ _ (k p hp hm)
    have hsum : s'.2 = s.2 := by rw [e3 h1, e3' h2]; rfl
    rw [hsum, h1, h2]; rfl
  · have h1' : s.1 = false := by simpa using h1
    cases hig : E.ignore with
    | true => exact absurd (e2.2 (.inl hig)) h1
    | false => rw [hig, h1'] at h; exact absurd h (lt_irrefl _)

end freed

section mono
variable {E : RSEnv} (hE : E.Sane) {f : Int → Int → Bool} (hf : ∀ x y, E.map.free x y = true → f x y = true)
include hE hf

theorem sum3_freed {a m b : Circ} (ha : a.radius = E.radius) (hm : m.radius = E.radius) (hb : b.radius = E.radius)
    (h : sumWeights E [a, m, b] < NOT_FREE) : sumWeights (E.on (E.map.refree f)) [a, m, b] = sumWeights E [a, m, b] := by
  have r := hE.radius
  have p1 := Circ.weight_nonneg hE a ha
  have p2 := Circ.weight_nonneg hE m hm
  have p3 := Circ.weight_nonneg hE b hb
  simp only [sumWeights, List.foldl] at h ⊢
  rw [Circ.weight_freed hf a (by rw [ha]; exact r) (by linarith), Circ.weight_freed hf m (by rw [hm]; exact r) (by linarith),
    Circ.weight_freed hf b (by rw [hb]; exact r) (by linarith)]

theorem sum4_freed {a m n b : Circ} (ha : a.radius = E.radius) (hm : m.radius = E.radius) (hn : n.radius = E.radius) (hb : b.radius = E.radius)
    (h : sumWeights E [a, m, n, b] < NOT_FREE) : sumWeights (E.on (E.map.refree f)) [a, m, n, b] = sumWeights E [a, m, n, b] := by
  have r := hE.radius
  have p1 := Circ.weight_nonneg hE a ha
  have p2 := Circ.weight_nonneg hE m hm
  have p4 := Circ.weight_nonneg hE n hn
  have p3 := Circ.weight_nonneg hE b hb
  simp only [sumWeights, List.foldl] at h ⊢
  rw [Circ.weight_freed hf a (by rw [ha]; exact r) (by linarith), Circ.weight_freed hf m (by rw [hm]; exact r) (by linarith),
    Circ.weight_freed hf n (by rw [hn]; exact r) (by linarith), Circ.weight_freed hf b (by rw [hb]; exact r) (by linarith)]

/-- One curve: with fewer obstacles it is accepted again, and costs no more. -/
theorem check_freed (c k : Curve) (h : c.check E = .ok k) (hw : k.weight < NOT_FREE) :
    ∃ k', c.check (E.on (E.map.refree f)) = .ok k' ∧ k'.weight ≤ k.weight ∧ k'.curveArc ≤ 8 * Real.pi := by
  have hC := hE.clamp
  have hr := hE.radius
  have hpi := Real.pi_pos
  set E' := E.on (E.map.refree f) with hE'
  have nope : ∀ X : Curve, c.check E = .ok X → X.weight = NOT_FREE → False := by
    intro X hX e
    rw [hX] at h; injection h with h; subst h
    rw [e] at hw; exact lt_irrefl _ hw
  by_cases h3 : c.seq.length < 3 ∨ c.seq.length > 4
  · exact absurd (by unfold Curve.check; rw [if_pos h3] : c.check E = .ok { c with weight := NOT_FREE }) fun e => nope _ e rfl
  by_cases hd : c.start.distTo c.goal < 2
  · exact absurd (by unfold Curve.check; rw [if_neg h3, if_pos hd] : c.check E = .ok { c with weight := NOT_FREE }) fun e => nope _ e rfl
  rcases check_shape E c h3 hd with ⟨a, l, b, hs, hc⟩ | ⟨a, m, b, hs, hc⟩ | ⟨a, m, n, b, hs, hc⟩ |
    ⟨a, s, t, b, hs, _, hc⟩ | ⟨_, hc⟩
  · rw [hc] at h; injection h with h; subst h
    simp only at hw
    rcases check_shape E' c h3 hd with ⟨a', l', b', hs', hc'⟩ | ⟨a', m', b', hs', hc'⟩ | ⟨a', m', n', b', hs', hc'⟩ |
      ⟨a', s', t', b', hs', _, hc'⟩ | ⟨hbad, hc'⟩
    · rw [hs] at hs'
      simp only [List.cons.injEq, Seg.circ.injEq, Seg.line.injEq, and_true] at hs'
      obtain ⟨rfl, rfl, rfl⟩ := hs'
      refine ⟨_, hc', ?_⟩
      simp only [Curve.curveArc]
      unfold handleCSC at hw ⊢
      have ec : commonTangent E' (initA E' c.start a) l (initZ E' c.goal b) = commonTangent E (initA E c.start a) l (initZ E c.goal b) := rfl
      rw [ec]
      cases hct : commonTangent E (initA E c.start a) l (initZ E c.goal b) with
      | none => rw [hct] at hw; exact absurd hw (lt_irrefl _)
      | some r =>
        obtain ⟨a', l', b'⟩ := r
        obtain ⟨kS, kE, _, fa, fb, _⟩ := commonTangent_keep hct
        rw [hct] at hw
        simp only at hw ⊢
        have ra : a'.radius = E.radius := kS.radius
        have rb : b'.radius = E.radius := kE.radius
        have p1 := Circ.weight_nonneg hE a' ra
        have p2 := Lin.weight_nonneg hE l'
        have p3 := Circ.weight_nonneg hE b' rb
        rw [Circ.weight_freed hf a' (by rw [ra]; exact hr) (by linarith), Lin.weight_freed hf l' (by linarith),
          Circ.weight_freed hf b' (by rw [rb]; exact hr) (by linarith)]
        refine ⟨le_refl _, ?_⟩
        simp only [List.foldl]
        have := fit_arc_le hC fa
        have := fit_arc_le hC fb
        linarith
    · rw [hs] at hs'; simp at hs'
    · rw [hs] at hs'; simp at hs'
    · rw [hs] at hs'; simp at hs'
    · exfalso
      rw [hs] at hbad
      rcases hbad with ⟨x, r, hx⟩ | ⟨x, r, hx⟩
      · simp at hx
      · have := congrArg List.getLast? hx
        simp at this
  · rw [hc] at h; injection h with h; subst h
    simp only at hw
    rcases check_shape E' c h3 hd with ⟨a', l', b', hs', hc'⟩ | ⟨a', m', b', hs', hc'⟩ | ⟨a', m', n', b', hs', hc'⟩ |
      ⟨a', s', t', b', hs', _, hc'⟩ | ⟨hbad, hc'⟩
    · rw [hs] at hs'; simp at hs'
    · rw [hs] at hs'
      simp only [List.cons.injEq, Seg.circ.injEq, and_true] at hs'
      obtain ⟨rfl, rfl, rfl⟩ := hs'
      refine ⟨_, hc', ?_⟩
      simp only [Curve.curveArc]
      have eA : initA E' c.start a = initA E c.start a := rfl
      have eB : initZ E' c.goal b = initZ E c.goal b := rfl
      have eM : m.setRadius E'.radius = m.setRadius E.radius := rfl
      rw [eA, eB, eM]
      set A := initA E c.start a with hA
      set M := m.setRadius E.radius with hM
      set B := initZ E c.goal b with hB
      cases hsym : (symmetryHelper E A B [A, M, B] 4 (tangentialCircleVec E)).1 with
      | false => unfold handleC3 at hw; simp only [hsym] at hw; exact absurd hw (by simp)
      | true =>
        obtain ⟨d1, d2, -⟩ := symmetryHelper_true hsym
        obtain ⟨-, p, h2, h4⟩ := symmetryHelper_best E A B [A, M, B] 4 (tangentialCircleVec E) (single_forget ..) (single_forget ..)
          (single_forget ..) (not_lt.1 d1) (not_lt.1 d2)
        obtain ⟨x, y, z, exyz, r1, r2, r4⟩ := single_shape E p A M B rfl rfl rfl
        have hv : (handleC3 E A M B).2 = sumWeights E [x, y, z] := by
          unfold handleC3; simp only; rw [if_pos hsym, h2 hsym, exyz]
        have hw' : sumWeights E [x, y, z] < NOT_FREE := by rw [← hv]; exact hw
        have hq : tangentialCircle E' p A M B = (x, y, z) := by
          have := exyz
          simp only [tangentialCircleVec, List.cons.injEq, and_true] at this
          exact Prod.ext this.1 (Prod.ext this.2.1 this.2.2)
        have hsw : x.weight E' + y.weight E' + z.weight E' = sumWeights E [x, y, z] := by
          rw [← sum3_freed hE hf r1.1 r2.1 r4.1 hw']
          simp only [sumWeights, List.foldl]; ring
        obtain ⟨z1, p', z2⟩ := handleC3_best E' A M B (not_lt.1 d1) (not_lt.1 d2) p x y z hq (by rw [hsw]; exact hw')
        refine ⟨by rw [hv, ← hsw]; exact z1, ?_⟩
        rw [z2]
        obtain ⟨k1, k2, k3, f1, f2, f3⟩ := tangentialCircle_keep E' p' A M B
        simp only [tangentialCircleVec, List.map, List.foldl]
        have := fit_arc_le (E := E') hC f1
        have := fit_arc_le (E := E') hC f2
        have := fit_arc_le (E := E') hC f3
        linarith
    · rw [hs] at hs'; simp at hs'
    · rw [hs] at hs'; simp at hs'
    · exfalso
      rw [hs] at hbad
      rcases hbad with ⟨x, r, hx⟩ | ⟨x, r, hx⟩
      · simp at hx
      · have := congrArg List.getLast? hx
        simp at this
  · rw [hc] at h; injection h with h; subst h
    simp only at hw
    rcases check_shape E' c h3 hd with ⟨a', l', b', hs', hc'⟩ | ⟨a', m', b', hs', hc'⟩ | ⟨a', m', n', b', hs', hc'⟩ |
      ⟨a', s', t', b', hs', hst, hc'⟩ | ⟨hbad, hc'⟩
    · rw [hs] at hs'; simp at hs'
    · rw [hs] at hs'; simp at hs'
    · rw [hs] at hs'
      simp only [List.cons.injEq, Seg.circ.injEq, and_true] at hs'
      obtain ⟨rfl, rfl, rfl, rfl⟩ := hs'
      refine ⟨_, hc', ?_⟩
      simp only [Curve.curveArc]
      have eA : initA E' c.start a = initA E c.start a := rfl
      have eB : initZ E' c.goal b = initZ E c.goal b := rfl
      have eM : m.setRadius E'.radius = m.setRadius E.radius := rfl
      have eN : n.setRadius E'.radius = n.setRadius E.radius := rfl
      rw [eA, eB, eM, eN]
      set A := initA E c.start a with hA
      set M := m.setRadius E.radius with hM
      set N := n.setRadius E.radius with hN
      set B := initZ E c.goal b with hB
      cases hsym : (symmetryHelper E A B [A, M, N, B] 6 (tangentialDoubleVec E)).1 with
      | false => unfold handleC4 at hw; simp only [hsym] at hw; exact absurd hw (by simp)
      | true =>
        obtain ⟨d1, d2, -⟩ := symmetryHelper_true hsym
        obtain ⟨-, p, h2, h4⟩ := symmetryHelper_best E A B [A, M, N, B] 6 (tangentialDoubleVec E) (double_forget ..) (double_forget ..)
          (double_forget ..) (not_lt.1 d1) (not_lt.1 d2)
        obtain ⟨x, y, u, z, exyz, r1, r2, r3, r4⟩ := double_shape E p A M N B rfl rfl rfl rfl
        have hv : (handleC4 E A M N B).2 = sumWeights E [x, y, u, z] := by
          unfold handleC4; simp only; rw [if_pos hsym, h2 hsym, exyz]
        have hw' : sumWeights E [x, y, u, z] < NOT_FREE := by rw [← hv]; exact hw
        have hq : tangentialDouble E' p A M N B = (x, y, u, z) := by
          have := exyz
          simp only [tangentialDoubleVec, List.cons.injEq, and_true] at this
          exact Prod.ext this.1 (Prod.ext this.2.1 (Prod.ext this.2.2.1 this.2.2.2))
        have hsw : x.weight E' + y.weight E' + u.weight E' + z.weight E' = sumWeights E [x, y, u, z] := by
          rw [← sum4_freed hE hf r1.1 r2.1 r3.1 r4.1 hw']
          simp only [sumWeights, List.foldl]; ring
        obtain ⟨z1, p', z2⟩ := handleC4_best E' A M N B (not_lt.1 d1) (not_lt.1 d2) p x y u z hq (by rw [hsw]; exact hw')
        refine ⟨by rw [hv, ← hsw]; exact z1, ?_⟩
        rw [z2]
        obtain ⟨k1, k2, k3, k4, f1, f2, f3, f4⟩ := tangentialDouble_keep E' p' A M N B
        simp only [tangentialDoubleVec, List.map, List.foldl]
        have := fit_arc_le (E := E') hC f1
        have := fit_arc_le (E := E') hC f2
        have := fit_arc_le (E := E') hC f3
        have := fit_arc_le (E := E') hC f4
        linarith
    · exfalso
      rw [hs] at hs'
      simp only [List.cons.injEq, and_true] at hs'
      rcases hst with ⟨l, rfl⟩ | ⟨l, rfl⟩ <;> simp at hs'
    · exfalso
      rw [hs] at hbad
      rcases hbad with ⟨x, r, hx⟩ | ⟨x, r, hx⟩
      · simp at hx
      · have := congrArg List.getLast? hx
        simp at this
  · exact absurd hc fun e => nope _ e rfl
  · rw [hc] at h; cases h

end mono

/-- **C111 (obstacles removed, curves).**  If every free cell stays free and the maximum arc is more than four full turns, a
`find_path` that found a curve finds one again, and it costs no more. -/
theorem findPath_freed (g g₁ g₂ : Gen) (clamp : ℝ → ℝ) (start goal : Pose) (map : MapIf) (f : Int → Int → Bool) (ig : Bool)
    (hf : ∀ x y, map.free x y = true → f x y = true) (hE : (g.env clamp map ig).Sane) (m : ℝ) (hm : g.maxArc = some m) (hm' : 8 * Real.pi < m)
    (k : Curve) (h : g.findPath clamp start goal map ig = .ok (g₁, some k)) (r : Option Curve)
    (h' : g.findPath clamp start goal (map.refree f) ig = .ok (g₂, r)) :
    ∃ k', r = some k' ∧ k'.weight ≤ k.weight := by
  obtain ⟨hfa, -, hsome⟩ := findPath_best g g₁ clamp start goal map ig m hm (some k) h
  obtain ⟨pre, post, e, he, -, -⟩ := hsome k rfl
  obtain ⟨c, hc, ht⟩ := forall₂_mem hfa (b := k) (by rw [e]; simp)
  obtain ⟨k1, hk1, hw1, ha1⟩ := check_freed (E := g.env clamp map ig) hE hf _ _ ht he.1
  obtain ⟨hfa', hnone', hsome'⟩ := findPath_best g g₂ clamp start goal (map.refree f) ig m hm r h'
  obtain ⟨j, hj, htj⟩ := forall₂_mem_left hfa' hc
  have : j = k1 := by
    have : (CRes.ok j : CRes Curve) = .ok k1 := htj.symm.trans hk1
    injection this
  subst this
  have hel : Eligible m j := ⟨lt_of_le_of_lt hw1 he.1, by linarith⟩
  cases r with
  | none => exact absurd hel (hnone'.1 rfl j hj)
  | some k' =>
    refine ⟨k', rfl, ?_⟩
    obtain ⟨pre', post', e', _, hpre, hpost⟩ := hsome' k' rfl
    rw [e'] at hj
    rcases List.mem_append.1 hj with h1 | h1
    · exact ((hpre j h1 hel).le).trans hw1
    · rcases List.mem_cons.1 h1 with rfl | h1
      · exact hw1
      · exact (hpost j h1 hel).trans hw1

end PathPlanning.RS
