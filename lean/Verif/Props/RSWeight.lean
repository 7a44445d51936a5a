import Verif.Props.RSLine
import Verif.Props.RSCircle

/-!
# C39: curves returned by `find_path` are collision free
-/

noncomputable section

namespace PathPlanning.RS
open Spec

/-- What "the segment is free of collisions" means for the map `m`.
A straight segment: its first cell is in the map, and there is a digital line from its first to its
last cell whose cells in the map are all free.
A turn: every cell of the digital circle is in the map, and those over which the driven arc passes are
free. -/
def SegClear (m : MapIf) : Seg → Prop
  | .line l =>
    m.inMap (truncC l.start.x) (truncC l.start.y) = true ∧
    ∃ cells, DigitalLine (truncC l.start.x, truncC l.start.y) (truncC l.stop.x, truncC l.stop.y) cells ∧
      ∀ p ∈ cells, m.inMap p.1 p.2 = true → m.free p.1 p.2 = true
  | .circ c =>
    ∀ x y : Int, RingCell (truncC c.radius) (truncC c.center.x, truncC c.center.y) (x, y) →
      m.inMap x y = true ∧
      (ArcPasses c.aStart c.arc ((x - truncC c.center.x : Int) : ℝ)
        ((y - truncC c.center.y : Int) : ℝ) → m.free x y = true)

/-- Settings that make sense: non-negative costs, positive resolution, way point distance, and a
radius of at least one cell. -/
structure RSEnv.Sane (E : RSEnv) : Prop where
  clamp : ClampSpec E.clamp
  open' : ∀ t, -Real.pi < E.clamp t
  res : 0 < E.map.res
  maxDist : 0 < E.maxDist
  radius : 1 ≤ E.radius
  costF : 0 ≤ E.costF
  costB : 0 ≤ E.costB
  costC : 0 ≤ E.costC
  costS : 0 ≤ E.costS

theorem sum_map_nonneg {α : Type} (l : List α) (f : α → Nat) :
    (0 : ℝ) ≤ (l.map fun a => (f a : ℝ)).sum := by
  induction l with
  | nil => simp
  | cons a l ih => simp only [List.map_cons, List.sum_cons]; positivity

theorem truncC_of_one_le {r : ℝ} (h : 1 ≤ r) : 1 ≤ truncC r := by
  unfold truncC
  rw [if_pos (by linarith)]
  exact Int.le_floor.2 (by exact_mod_cast h)

section
variable {E : RSEnv} (hE : E.Sane)
include hE

theorem dirCost_nonneg (d : Dir) : 0 ≤ E.dirCost d := by
  unfold RSEnv.dirCost; split_ifs
  · exact hE.costB
  · exact hE.costF

theorem Lin.weight_nonneg (l : Lin) : 0 ≤ l.weight E := by
  unfold Lin.weight
  simp only
  have hN : (0 : ℝ) ≤ NOT_FREE := by norm_num [NOT_FREE]
  split_ifs with h1 h2 h3
  · exact hN
  · obtain ⟨cells, _, hs⟩ := lineCheck_spec (truncC l.start.x) (truncC l.start.y) (truncC l.stop.x)
      (truncC l.stop.y)
    obtain ⟨r, e, h4, h5⟩ := hs E
    rw [e] at h2 ⊢
    simp only [Option.getD_some] at h2 ⊢
    have hr : r.1 = true := by
      simp only [Bool.or_eq_true] at h2
      rcases h2 with h | h
      · exact h4.2 (Or.inl h)
      · exact h
    rw [h5 hr]
    have := sum_map_nonneg (cells.filter fun p => E.map.inMap p.1 p.2)
      (fun p => max E.minCell (E.map.value p.1 p.2))
    exact div_nonneg (mul_nonneg (mul_nonneg (dirCost_nonneg hE _) this) hE.costS) hE.res.le
  · refine mul_nonneg (mul_nonneg ?_ (dirCost_nonneg hE _)) hE.costS
    unfold Pose.distOrigin; positivity
  · exact hN

theorem Circ.weight_nonneg (c : Circ) (hr : c.radius = E.radius) : 0 ≤ c.weight E := by
  unfold Circ.weight
  simp only
  have hN : (0 : ℝ) ≤ NOT_FREE := by norm_num [NOT_FREE]
  have hrad := hE.radius
  split_ifs with h2 h3
  · obtain ⟨cells, _, _, hs⟩ := checkCircle_spec (truncC c.center.x) (truncC c.center.y)
      (truncC c.radius) (by rw [hr]; exact truncC_of_one_le hE.radius)
    obtain ⟨r, e, h4, h5⟩ := hs E c
    rw [e]
    simp only [Option.getD_some]
    rw [h5]
    have := sum_map_nonneg (cells.filter fun p => E.map.inMap p.1 p.2 &&
      c.onSegment E (truncC c.center.x) (truncC c.center.y) p.1 p.2)
      (fun p => max E.minCell (E.map.value p.1 p.2))
    exact div_nonneg (mul_nonneg (mul_nonneg (dirCost_nonneg hE _) this) hE.costC) hE.res.le
  · refine mul_nonneg (mul_nonneg ?_ (dirCost_nonneg hE _)) hE.costC
    unfold Circ.length
    exact mul_nonneg (abs_nonneg _) (by rw [hr]; linarith)
  · exact hN

theorem ringCell_ne_center {r : Int} (hr : 1 ≤ r) {c p : Int × Int} (h : RingCell r c p) :
    ¬ (p.1 = c.1 ∧ p.2 = c.2) := by
  rintro ⟨h1, h2⟩
  unfold RingCell at h
  simp only [h1, h2, sub_self, abs_zero, max_self, min_self] at h
  nlinarith [h.2]

/-- A straight segment whose weight is below `NOT_FREE` is clear. -/
theorem Lin.clear_of_weight (hi : E.ignore = false) (l : Lin) (h : l.weight E < NOT_FREE) :
    SegClear E.map (.line l) := by
  unfold Lin.weight at h
  simp only [hi, Bool.not_false, Bool.and_true, Bool.false_or] at h
  obtain ⟨cells, hd, hs⟩ := lineCheck_spec (truncC l.start.x) (truncC l.start.y) (truncC l.stop.x)
    (truncC l.stop.y)
  obtain ⟨r, e, h4, _⟩ := hs E
  cases hm : E.map.inMap (truncC l.start.x) (truncC l.start.y) with
  | false => rw [hm] at h; simp at h
  | true =>
    rw [hm, e] at h
    simp only [Bool.not_true, Bool.false_eq_true, if_false, Option.getD_some] at h
    have hr : r.1 = true := by
      by_contra hc
      rw [if_neg hc] at h
      exact lt_irrefl _ h
    refine ⟨hm, cells, hd, ?_⟩
    rcases h4.1 hr with h5 | h5
    · rw [hi] at h5; cases h5
    · exact h5

/-- A turn whose weight is below `NOT_FREE` is clear. -/
theorem Circ.clear_of_weight (hi : E.ignore = false) (c : Circ) (hr : c.radius = E.radius)
    (hf : c.Fit E) (h : c.weight E < NOT_FREE) : SegClear E.map (.circ c) := by
  have h1 : 1 ≤ truncC c.radius := by rw [hr]; exact truncC_of_one_le hE.radius
  unfold Circ.weight at h
  simp only [hi, Bool.false_or] at h
  obtain ⟨cells, _, _, hs⟩ := checkCircle_spec (truncC c.center.x) (truncC c.center.y)
    (truncC c.radius) h1
  obtain ⟨r, e, h4, _⟩ := hs E c
  rw [e] at h
  simp only [Option.getD_some] at h
  have hr' : r.1 = true := by
    by_contra hc
    rw [if_neg hc] at h
    exact lt_irrefl _ h
  intro x y hp
  obtain ⟨g1, g2⟩ := h4.1 hr' (x, y) hp
  refine ⟨g1, fun ha => ?_⟩
  have hrad := hE.radius
  have := g2 ((onSegment_iff hE.clamp hE.open' hf (by rw [hr]; linarith) hE.maxDist _ _ _ _
    (ringCell_ne_center hE h1 hp)).2 ha)
  rw [hi] at this
  simpa using this

end

/-! ### The weight of a curve -/

theorem single_shape (E : RSEnv) (p : Bool) (a m b : Circ) (ha : a.radius = E.radius)
    (hm : m.radius = E.radius) (hb : b.radius = E.radius) :
    ∃ a' m' b', tangentialCircleVec E p [a, m, b] = [a', m', b'] ∧
      (a'.radius = E.radius ∧ a'.Fit E) ∧ (m'.radius = E.radius ∧ m'.Fit E) ∧
      (b'.radius = E.radius ∧ b'.Fit E) := by
  obtain ⟨k1, k2, k4, f1, f2, f4⟩ := tangentialCircle_keep E p a m b
  exact ⟨_, _, _, rfl, ⟨k1.radius.trans ha, f1⟩, ⟨k2.radius.trans hm, f2⟩,
    ⟨k4.radius.trans hb, f4⟩⟩

theorem double_shape (E : RSEnv) (p : Bool) (a m n b : Circ) (ha : a.radius = E.radius)
    (hm : m.radius = E.radius) (hn : n.radius = E.radius) (hb : b.radius = E.radius) :
    ∃ a' m' n' b', tangentialDoubleVec E p [a, m, n, b] = [a', m', n', b'] ∧
      (a'.radius = E.radius ∧ a'.Fit E) ∧ (m'.radius = E.radius ∧ m'.Fit E) ∧
      (n'.radius = E.radius ∧ n'.Fit E) ∧ (b'.radius = E.radius ∧ b'.Fit E) := by
  obtain ⟨k1, k2, k3, k4, f1, f2, f3, f4⟩ := tangentialDouble_keep E p a m n b
  exact ⟨_, _, _, _, rfl, ⟨k1.radius.trans ha, f1⟩, ⟨k2.radius.trans hm, f2⟩,
    ⟨k3.radius.trans hn, f3⟩, ⟨k4.radius.trans hb, f4⟩⟩

/-- The weight of an accepted curve is the sum of the weights of its segments. -/
theorem check_weight (E : RSEnv) (c c' : Curve) (h : c.check E = .ok c')
    (hw : c'.weight < NOT_FREE) :
    c'.weight = (c'.seq.map (Seg.weight E)).sum ∧
    ∀ k, Seg.circ k ∈ c'.seq → k.radius = E.radius ∧ k.Fit E := by
  by_cases h3 : c.seq.length < 3 ∨ c.seq.length > 4
  · have : c.check E = .ok { c with weight := NOT_FREE } := by
      unfold Curve.check; rw [if_pos h3]
    rw [this] at h; injection h with h; subst h; exact absurd hw (lt_irrefl _)
  by_cases hd : c.start.distTo c.goal < 2
  · have : c.check E = .ok { c with weight := NOT_FREE } := by
      unfold Curve.check; rw [if_neg h3, if_pos hd]
    rw [this] at h; injection h with h; subst h; exact absurd hw (lt_irrefl _)
  rcases check_shape E c h3 hd with ⟨a, l, b, hs, hc⟩ | ⟨a, m, b, hs, hc⟩ | ⟨a, m, n, b, hs, hc⟩ |
    ⟨a, s, t, b, hs, _, hc⟩ | ⟨_, hc⟩
  · rw [hc] at h; injection h with h; subst h
    simp only at hw ⊢
    unfold handleCSC at hw ⊢
    cases hct : commonTangent E (initA E c.start a) l (initZ E c.goal b) with
    | none => rw [hct] at hw; exact absurd hw (lt_irrefl _)
    | some r =>
      obtain ⟨a', l', b'⟩ := r
      obtain ⟨kS, kE, _, fa, fb, _⟩ := commonTangent_keep hct
      refine ⟨by simp [Seg.weight, add_assoc], ?_⟩
      intro k hk
      simp only [List.mem_cons, Seg.circ.injEq, reduceCtorEq, List.not_mem_nil, or_false,
        false_or] at hk
      rcases hk with rfl | rfl
      · exact ⟨kS.radius, fa⟩
      · exact ⟨kE.radius, fb⟩
  · rw [hc] at h; injection h with h; subst h
    simp only at hw ⊢
    unfold handleC3 at hw ⊢
    simp only at hw ⊢
    set A := initA E c.start a with hA
    set M := m.setRadius E.radius with hM
    set B := initZ E c.goal b with hB
    cases hs : (symmetryHelper E A B [A, M, B] 4 (tangentialCircleVec E)).1 with
    | false => rw [hs] at hw; exact absurd hw (by simp)
    | true =>
      obtain ⟨_, _, p, hp⟩ := symmetryHelper_true hs
      rw [hp]
      obtain ⟨a1, m1, b1, e1, r1, r2, r4⟩ := single_shape E true A M B rfl rfl rfl
      rw [e1]
      obtain ⟨a2, m2, b2, e2, r1, r2, r4⟩ := single_shape E false a1 m1 b1 r1.1 r2.1 r4.1
      rw [e2]
      obtain ⟨a3, m3, b3, e3, r1, r2, r4⟩ := single_shape E p a2 m2 b2 r1.1 r2.1 r4.1
      rw [e3]
      refine ⟨by simp [sumWeights, Seg.weight, add_assoc], ?_⟩
      intro k hk
      simp only [List.map_cons, List.map_nil, List.mem_cons, Seg.circ.injEq,
        List.not_mem_nil, or_false] at hk
      rcases hk with rfl | rfl | rfl
      · exact r1
      · exact r2
      · exact r4
  · rw [hc] at h; injection h with h; subst h
    simp only at hw ⊢
    unfold handleC4 at hw ⊢
    simp only at hw ⊢
    set A := initA E c.start a with hA
    set M := m.setRadius E.radius with hM
    set N := n.setRadius E.radius with hN
    set B := initZ E c.goal b with hB
    cases hs : (symmetryHelper E A B [A, M, N, B] 6 (tangentialDoubleVec E)).1 with
    | false => rw [hs] at hw; exact absurd hw (by simp)
    | true =>
      obtain ⟨_, _, p, hp⟩ := symmetryHelper_true hs
      rw [hp]
      obtain ⟨a1, m1, n1, b1, e1, r1, r2, r3, r4⟩ := double_shape E true A M N B rfl rfl rfl rfl
      rw [e1]
      obtain ⟨a2, m2, n2, b2, e2, r1, r2, r3, r4⟩ :=
        double_shape E false a1 m1 n1 b1 r1.1 r2.1 r3.1 r4.1
      rw [e2]
      obtain ⟨a3, m3, n3, b3, e3, r1, r2, r3, r4⟩ :=
        double_shape E p a2 m2 n2 b2 r1.1 r2.1 r3.1 r4.1
      rw [e3]
      refine ⟨by simp [sumWeights, Seg.weight, add_assoc], ?_⟩
      intro k hk
      simp only [List.map_cons, List.map_nil, List.mem_cons, Seg.circ.injEq,
        List.not_mem_nil, or_false] at hk
      rcases hk with rfl | rfl | rfl | rfl
      · exact r1
      · exact r2
      · exact r3
      · exact r4
  · rw [hc] at h; injection h with h; subst h; exact absurd hw (lt_irrefl _)
  · rw [hc] at h; cases h

theorem Seg.weight_nonneg' {E : RSEnv} (hE : E.Sane) {segs : List Seg}
    (hr : ∀ k, Seg.circ k ∈ segs → k.radius = E.radius) {s : Seg} (hs : s ∈ segs) :
    0 ≤ s.weight E := by
  cases s with
  | line l => exact Lin.weight_nonneg hE l
  | circ c => exact Circ.weight_nonneg hE c (hr c hs)

theorem mem_le_sum {α : Type} (f : α → ℝ) : ∀ (l : List α), (∀ a ∈ l, 0 ≤ f a) → ∀ a ∈ l,
    f a ≤ (l.map f).sum := by
  intro l
  induction l with
  | nil => intro _ a ha; cases ha
  | cons b l ih =>
    intro h a ha
    have hs : 0 ≤ (l.map f).sum := List.sum_nonneg (by
      intro x hx
      obtain ⟨y, hy, rfl⟩ := List.mem_map.1 hx
      exact h y (by simp [hy]))
    rw [List.map_cons, List.sum_cons]
    rcases List.mem_cons.1 ha with rfl | ha
    · linarith
    · have := ih (fun x hx => h x (by simp [hx])) a ha
      have := h b (by simp)
      linarith

/-- An accepted curve (obstacles not ignored) is clear of obstacles segment by segment. -/
theorem check_clear {E : RSEnv} (hE : E.Sane) (hi : E.ignore = false) (c c' : Curve)
    (h : c.check E = .ok c') (hw : c'.weight < NOT_FREE) : ∀ s ∈ c'.seq, SegClear E.map s := by
  obtain ⟨h1, h2⟩ := check_weight E c c' h hw
  intro s hs
  have hle := mem_le_sum (Seg.weight E) c'.seq
    (fun a ha => Seg.weight_nonneg' hE (fun k hk => (h2 k hk).1) ha) s hs
  have hlt : s.weight E < NOT_FREE := by rw [← h1] at hle; linarith
  cases s with
  | line l => exact Lin.clear_of_weight hE hi l hlt
  | circ k => exact Circ.clear_of_weight hE hi k (h2 k hs).1 (h2 k hs).2 hlt

/-- **C39.** A curve returned by `find_path` with obstacles not ignored: every segment is clear. -/
theorem findPath_clear (g g' : Gen) (clamp : ℝ → ℝ) (start goal : Pose) (map : MapIf)
    (hE : (g.env clamp map false).Sane) (k : Curve)
    (h : g.findPath clamp start goal map false = .ok (g', some k)) :
    ∀ s ∈ k.seq, SegClear map s := by
  cases hm : g.maxArc with
  | none => exact absurd (findPath_needs_maxArc g g' clamp start goal map false hm _ h) (by simp)
  | some m =>
    obtain ⟨hf, _, hb⟩ := findPath_best g g' clamp start goal map false m hm _ h
    obtain ⟨pre, post, e, he, _⟩ := hb k rfl
    obtain ⟨c, hc, ht⟩ := forall₂_mem hf (b := k) (by rw [e]; simp)
    exact check_clear (E := g.env clamp map false) hE rfl _ k ht he.1

/-- **C39.** One blocked segment rejects the whole curve: if a segment of the tested curve is not
clear, its weight is at least `NOT_FREE` (so `find_path` does not return it, `findPath_best`). -/
theorem check_blocked {E : RSEnv} (hE : E.Sane) (hi : E.ignore = false) (c c' : Curve)
    (h : c.check E = .ok c') (s : Seg) (hs : s ∈ c'.seq) (hb : ¬ SegClear E.map s) :
    NOT_FREE ≤ c'.weight := by
  by_contra hc
  exact hb (check_clear hE hi c c' h (not_le.1 hc) s hs)

/-- Settings and normaliser as required exist. -/
theorem sane_exists (map : MapIf) (hr : map.res = 1) :
    ∃ (g : Gen) (clamp : ℝ → ℝ), (g.env clamp map false).Sane := by
  refine ⟨{}, fun t => toIocMod Real.two_pi_pos (-Real.pi) t, ⟨⟨fun t => ?_, fun t => ?_, fun t => ?_⟩,
    fun t => ?_, ?_, ?_, ?_, ?_, ?_, ?_, ?_⟩⟩
  · exact (toIocMod_mem_Ioc Real.two_pi_pos (-Real.pi) t).1.le
  · have := (toIocMod_mem_Ioc Real.two_pi_pos (-Real.pi) t).2; simp only [Gen.env]; linarith
  · refine ⟨-toIocDiv Real.two_pi_pos (-Real.pi) t, ?_⟩
    have := toIocMod_add_toIocDiv_zsmul Real.two_pi_pos (-Real.pi) t
    rw [zsmul_eq_mul] at this
    simp only [Gen.env]
    push_cast; linarith
  · exact (toIocMod_mem_Ioc Real.two_pi_pos (-Real.pi) t).1
  all_goals simp [Gen.env, hr]

end PathPlanning.RS
