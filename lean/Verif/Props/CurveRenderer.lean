import Verif.Model.CurveRenderer
import Verif.Spec.CurveRenderer
import Verif.Props.RSIter
import Verif.Props.RSFree
import Verif.Props.Renderer
import Verif.Props.Bresenham

/-!
# C112 — what `CurveRenderer` draws
-/

namespace PathPlanning.CurveRender

open RS Render Spec

/-! ### The map -/

theorem cellColour_ok (m : GridMap ℝ) (wf : m.WellFormed) {x y : Nat} (hx : x < m.width) (hy : y < m.height) :
    ∃ v, m.getValue ⟨x, y⟩ = .ok v ∧ cellColour m x y =
      .ok (if m.freeByte v then (255, 255, 255) else (255 - v.toNat, 0, 0)) := by
  obtain ⟨v, hv⟩ := GridMap.read_ok m wf.size wf.len hx hy
  refine ⟨v, hv, ?_⟩
  have hf : m.isFree ⟨x, y⟩ = .ok (m.freeByte v) := by rw [GridMap.isFree, hv]; rfl
  unfold cellColour
  rw [hf, CRes.ok_bind, hv]
  cases m.freeByte v <;> rfl

/-- **C112 (the map).**  Drawing a map into a picture with at least one pixel per cell never writes outside of the picture;
afterwards the pixel of every free cell is white, the pixel of every other cell has the colour `(255 - value, 0, 0)`, and
no other pixel has changed. -/
theorem drawMap_pixel (m : GridMap ℝ) (wf : m.WellFormed) (o : Img (Nat × Nat × Nat)) (hr : (m.height : Int) ≤ o.rows)
    (hc : (m.width : Int) ≤ o.cols) :
    ∃ o', drawMap m o = .ok o' ∧ o'.rows = o.rows ∧ o'.cols = o.cols ∧
      (∀ x y : Nat, x < m.width → y < m.height →
        (m.isFree ⟨x, y⟩ = .ok true → o'.px (pixelOf o.rows x y).2 (pixelOf o.rows x y).1 = (255, 255, 255)) ∧
        (∀ v, m.isFree ⟨x, y⟩ = .ok false → m.getValue ⟨x, y⟩ = .ok v →
          o'.px (pixelOf o.rows x y).2 (pixelOf o.rows x y).1 = (255 - v.toNat, 0, 0))) ∧
      (∀ r c : Int, (∀ x y : Nat, x < m.width → y < m.height → (c, r) ≠ pixelOf o.rows x y) → o'.px r c = o.px r c) := by
  have main : ∀ l : List (Nat × Nat), (∀ p ∈ l, p.1 < m.width ∧ p.2 < m.height) → ∀ o : Img (Nat × Nat × Nat),
      (m.height : Int) ≤ o.rows → (m.width : Int) ≤ o.cols →
      ∃ o', l.foldlM (fun o p => do
          let col ← cellColour m p.1 p.2
          o.set (o.rows - 1 - p.2) p.1 col) o = CRes.ok o' ∧ o'.rows = o.rows ∧ o'.cols = o.cols ∧
        (∀ p ∈ l, ∃ col, cellColour m p.1 p.2 = .ok col ∧ o'.px (o.rows - 1 - p.2) p.1 = col) ∧
        (∀ r c : Int, (∀ p ∈ l, ¬ (r = o.rows - 1 - p.2 ∧ c = p.1)) → o'.px r c = o.px r c) := by
    intro l
    induction l with
    | nil => intro _ o _ _; exact ⟨o, rfl, rfl, rfl, by simp, fun _ _ _ => rfl⟩
    | cons p l ih =>
      intro hin o hr hc
      obtain ⟨h1, h2⟩ := hin p (by simp)
      obtain ⟨v, -, hv⟩ := cellColour_ok m wf h1 h2
      have hs := set_ok (o := o) (r := o.rows - 1 - p.2) (c := p.1) (by omega) (by omega) (by omega) (by omega)
        (if m.freeByte v then (255, 255, 255) else (255 - v.toNat, 0, 0))
      obtain ⟨o', e1, e2, e3, e4, e5⟩ := ih (fun q hq => hin q (List.mem_cons_of_mem _ hq))
        { o with px := fun r' c' => if r' = o.rows - 1 - p.2 ∧ c' = p.1 then
            (if m.freeByte v then (255, 255, 255) else (255 - v.toNat, 0, 0)) else o.px r' c' } hr hc
      simp only at e2 e3 e4 e5
      refine ⟨o', ?_, e2, e3, ?_, ?_⟩
      · rw [List.foldlM_cons, hv, CRes.ok_bind, hs, CRes.ok_bind]; exact e1
      · intro q hq
        by_cases hql : q ∈ l
        · exact e4 q hql
        · have hqp : q = p := (List.mem_cons.1 hq).resolve_right hql
          subst hqp
          refine ⟨_, hv, ?_⟩
          rw [e5 _ _ ?_]
          · simp
          · intro a ha hh
            apply hql
            have : q = a := by ext <;> omega
            rw [this]; exact ha
      · intro r c hno
        rw [e5 r c fun q hq => hno q (List.mem_cons_of_mem _ hq), if_neg (hno p (by simp))]
  obtain ⟨o', e1, e2, e3, e4, e5⟩ := main (cells m.width m.height) (fun p hp => mem_cells.1 hp) o hr hc
  refine ⟨o', e1, e2, e3, fun x y hx hy => ?_, fun r c hno => e5 r c fun p hp hh => ?_⟩
  · obtain ⟨col, c1, c2⟩ := e4 (x, y) (mem_cells.2 ⟨hx, hy⟩)
    obtain ⟨v, hv, hcol⟩ := cellColour_ok m wf hx hy
    rw [hcol] at c1
    injection c1 with c1
    have hf : m.isFree ⟨x, y⟩ = .ok (m.freeByte v) := by rw [GridMap.isFree, hv]; rfl
    simp only [pixelOf]
    constructor
    · intro h; rw [hf] at h; injection h with h; rw [c2, ← c1, h]; rfl
    · intro w h hw
      rw [hf] at h; injection h with h
      rw [hv] at hw; injection hw with hw; subst hw
      rw [c2, ← c1, h]; rfl
  · obtain ⟨h1, h2⟩ := mem_cells.1 hp
    exact hno p.1 p.2 h1 h2 (by simp [pixelOf, hh.1, hh.2])

/-- The colours tell the values of the cells apart: a cell that is not free is never shown white, and two cells that are
not free and have different values are shown in different colours. -/
theorem colours_differ (v w : UInt8) : ((255 - v.toNat, 0, 0) : Nat × Nat × Nat) ≠ (255, 255, 255) ∧
    (((255 - v.toNat, 0, 0) : Nat × Nat × Nat) = (255 - w.toNat, 0, 0) → v = w) := by
  have h1 := v.toNat_lt
  have h2 := w.toNat_lt
  refine ⟨by simp, fun h => ?_⟩
  have : 255 - v.toNat = 255 - w.toNat := congrArg Prod.fst h
  exact UInt8.toNat_inj.1 (by omega)

/-- **C112 (a picture that is too small).**  With fewer rows or columns than the map has, `draw_map` writes outside of the
picture. -/
theorem drawMap_small (m : GridMap ℝ) (wf : m.WellFormed) (hw : 0 < m.width) (hh : 0 < m.height)
    (o : Img (Nat × Nat × Nat)) (hs : o.rows < m.height ∨ o.cols < m.width) : drawMap m o = .ub := by
  have main : ∀ l : List (Nat × Nat), (∀ p ∈ l, p.1 < m.width ∧ p.2 < m.height) → ∀ o : Img (Nat × Nat × Nat),
      (∃ p ∈ l, o.rows - 1 - p.2 < 0 ∨ o.cols ≤ p.1) →
      l.foldlM (fun o p => do
          let col ← cellColour m p.1 p.2
          o.set (o.rows - 1 - p.2) p.1 col) o = CRes.ub := by
    intro l
    induction l with
    | nil => rintro _ o ⟨p, hp, _⟩; simp at hp
    | cons p l ih =>
      rintro hin o ⟨q, hq, hbad⟩
      obtain ⟨h1, h2⟩ := hin p (by simp)
      obtain ⟨v, -, hv⟩ := cellColour_ok m wf h1 h2
      rw [List.foldlM_cons, hv, CRes.ok_bind]
      by_cases hok : 0 ≤ o.rows - 1 - (p.2 : Int) ∧ o.rows - 1 - (p.2 : Int) < o.rows ∧ (0 : Int) ≤ p.1 ∧ (p.1 : Int) < o.cols
      · have e : o.set (o.rows - 1 - p.2) p.1 (if m.freeByte v then (255, 255, 255) else (255 - v.toNat, 0, 0)) =
            .ok { o with px := fun r' c' => if r' = o.rows - 1 - p.2 ∧ c' = p.1 then
              (if m.freeByte v then (255, 255, 255) else (255 - v.toNat, 0, 0)) else o.px r' c' } := by
          rw [Img.set, if_pos hok]
        rw [e, CRes.ok_bind]
        refine ih (fun a ha => hin a (List.mem_cons_of_mem _ ha)) _ ⟨q, ?_, hbad⟩
        rcases List.mem_cons.1 hq with rfl | hq
        · exfalso; omega
        · exact hq
      · have e : o.set (o.rows - 1 - p.2) p.1 (if m.freeByte v then (255, 255, 255) else (255 - v.toNat, 0, 0)) = .ub := by
          rw [Img.set, if_neg hok]
        rw [e]; rfl
  refine main _ (fun p hp => mem_cells.1 hp) o ?_
  rcases hs with hs | hs
  · exact ⟨(0, m.height - 1), mem_cells.2 ⟨hw, by simp only; omega⟩, .inl (by simp only; omega)⟩
  · exact ⟨(m.width - 1, 0), mem_cells.2 ⟨by simp only; omega, hh⟩, .inr (by simp only; omega)⟩

/-! ### Points of a curve -/

/-- **C112 (a point and its cell).**  A point of the map is drawn on the pixel of the cell that contains it, unless its
ordinate is a whole number: then it is drawn one pixel below, on the lower border even outside of the picture. -/
theorem point_pixel {h : Int} {p : P2} (hx : 0 ≤ p.x) (hh : p.y < h) :
    ((∀ j : Int, p.y ≠ j) → p2cv p h = pixelOf h ⌊p.x⌋ ⌊p.y⌋) ∧
    (∀ j : Int, p.y = j → p2cv p h = pixelOf h ⌊p.x⌋ (j - 1)) := by
  have e : p2cv p h = (⌊p.x⌋, h - ⌈p.y⌉) := by
    unfold p2cv
    rw [truncC_nonneg hx, truncC_nonneg (by linarith)]
    congr 1
    rw [Int.floor_eq_iff]
    push_cast
    constructor
    · linarith [Int.le_ceil p.y]
    · linarith [Int.ceil_lt_add_one p.y]
  constructor
  · intro hne
    rw [e, pixelOf]
    congr 1
    have : ⌈p.y⌉ = ⌊p.y⌋ + 1 := by
      rw [Int.ceil_eq_iff]
      push_cast
      refine ⟨?_, (Int.lt_floor_add_one _).le⟩
      rcases (Int.floor_le p.y).lt_or_eq with h | h
      · linarith
      · exact absurd h.symm (hne _)
    omega
  · intro j hj
    rw [e, pixelOf, hj, Int.ceil_intCast]
    congr 1; omega

/-- The point `(3, 0)` of a map is drawn outside of a picture with as many rows as the map. -/
theorem bottom_outside (cols : Int) (h : Int) (hh : 0 < h) : ¬ InPicture h cols (p2cv ⟨3, 0⟩ h) := by
  have := (point_pixel (h := h) (p := ⟨3, 0⟩) (by norm_num) (by simpa using hh)).2 0 (by simp)
  rw [this]
  unfold InPicture pixelOf
  simp only
  omega

/-- A point left of the map, less than one cell away, is drawn on the first column. -/
theorem left_border {h : Int} {p : P2} (h1 : -1 < p.x) (h2 : p.x < 1) : (p2cv p h).1 = 0 := truncC_eq_zero h1 h2

/-! ### A curve -/

theorem drain_rem (E : RSEnv) (fuel : Nat) : ∀ c : Curve, c.Iter E → (c.rem E).length ≤ fuel →
    ∃ d, drain E fuel c = .ok (some (c.rem E, d)) ∧ d.Iter E ∧ d.rem E = [] ∧ Read E c d ∧
      d.start = c.start ∧ d.goal = c.goal ∧ d.weight = c.weight := by
  have hnext : ∀ (fuel : Nat) (c d : Curve) (p : Pose), c.nextAux E fuel = .ok (p, d) →
      d.start = c.start ∧ d.goal = c.goal ∧ d.weight = c.weight := by
    intro fuel
    induction fuel with
    | zero =>
      intro c d p h
      rw [Curve.nextAux] at h
      cases hs : c.seq[c.outNo]? with
      | none => rw [hs] at h; cases h
      | some s =>
        rw [hs] at h
        simp only at h
        split_ifs at h <;> (simp only [CRes.ok.injEq, Prod.mk.injEq] at h; obtain ⟨_, rfl⟩ := h; exact ⟨rfl, rfl, rfl⟩)
    | succ fuel ih =>
      intro c d p h
      rw [Curve.nextAux] at h
      cases hs : c.seq[c.outNo]? with
      | none => rw [hs] at h; cases h
      | some s =>
        rw [hs] at h
        simp only at h
        split_ifs at h
        · simp only [CRes.ok.injEq, Prod.mk.injEq] at h; obtain ⟨_, rfl⟩ := h; exact ⟨rfl, rfl, rfl⟩
        · cases ht : c.seq[c.outNo + 1]? with
          | none => rw [ht] at h; cases h
          | some t =>
            rw [ht] at h
            have := ih _ _ _ h
            exact this
        · simp only [CRes.ok.injEq, Prod.mk.injEq] at h; obtain ⟨_, rfl⟩ := h; exact ⟨rfl, rfl, rfl⟩
  induction fuel with
  | zero =>
    intro c hI hl
    have h0 : c.rem E = [] := List.length_eq_zero_iff.1 (by omega)
    have : ¬ c.hasNext.1 = true := by rw [(Curve.hasNext_iff hI).2, h0]; simp
    refine ⟨c, ?_, hI, h0, .refl, rfl, rfl, rfl⟩
    rw [drain, if_neg this, h0, (Curve.hasNext_iff hI).1]
  | succ fuel ih =>
    intro c hI hl
    rw [drain]
    by_cases hn : c.hasNext.1 = true
    · rw [if_pos hn, (Curve.hasNext_iff hI).1]
      obtain ⟨p, c', h1, h2, h3⟩ := nextAux_spec E c.seq.length c hI (by omega) hn
      have hnx : c.next E = .ok (p, c') := h1
      obtain ⟨d, e1, e2, e3, e4, e5, e6, e7⟩ := ih c' h2 (by rw [h3] at hl; simpa using hl)
      obtain ⟨s1, s2, s3⟩ := hnext _ _ _ _ h1
      refine ⟨d, ?_, e2, e3, ?_, e5.trans s1, e6.trans s2, e7.trans s3⟩
      · rw [hnx, CRes.ok_bind, e1, CRes.ok_bind, h3]; rfl
      · have trans : ∀ {a b x : Curve}, Read E a b → Read E b x → Read E a x := by
          intro a b x hab hbx
          induction hbx with
          | refl => exact hab
          | reset _ ih => exact .reset ih
          | hasNext _ ih => exact .hasNext ih
          | next _ hn ih => exact .next ih hn
        exact trans (.next .refl hnx) e4
    · rw [if_neg hn]
      have h0 : c.rem E = [] := by
        by_contra hc
        exact hn ((Curve.hasNext_iff hI).2.2 hc)
      exact ⟨c, by rw [h0, (Curve.hasNext_iff hI).1], hI, h0, .refl, rfl, rfl, rfl⟩

theorem reset_rem (E : RSEnv) (c : Curve) (pre : List Seg) (z : Circ) (hs : c.seq = pre ++ [.circ z]) :
    (c.reset E).Iter E ∧ (c.reset E).rem E = allPoses E c.seq := by
  have hne : c.seq ≠ [] := by rw [hs]; simp
  refine ⟨⟨?_, pre.map (Seg.reset E), (Seg.circ z).reset E, by simp [Curve.reset, hs], ?_⟩, ?_⟩
  · simp only [Curve.reset, if_neg hne, List.length_map]
    exact List.length_pos_iff.2 hne
  · rw [Seg.reset_reset]; exact Circ.rem_reset_ne E z
  · unfold Curve.rem
    simp only [Curve.reset, if_neg hne]
    rcases hc : c.seq with _ | ⟨s, rest⟩
    · exact absurd hc hne
    · simp [allPoses, List.flatMap_map, Seg.reset_reset]

theorem polyline_eq (hs : Int) (ps : List Pose) : ∀ last : Pose, polyline hs last ps =
    List.zipWith (fun a b => Cmd.line .trajectory (p2cv a.pt hs) (p2cv b.pt hs) 1) (last :: ps) ps := by
  induction ps with
  | nil => intro _; rfl
  | cons n ps ih => intro last; rw [polyline, ih n]; rfl

/-- **C112 (the geometry).**  Under the curve, every turn is shown by the circle of its radius around its centre (where its angle is written) and every
straight by the line between its ends. -/
theorem ground_shapes (hs : Int) (k : Curve) :
    (∀ c : Circ, Seg.circ c ∈ k.seq → Cmd.circle .ground (p2cv c.center hs) (truncC c.radius) ∈ k.seq.flatMap (segCmds hs) ∧
      Cmd.label (p2cv c.center hs) ∈ k.seq.flatMap (segCmds hs)) ∧
    (∀ l : Lin, Seg.line l ∈ k.seq → Cmd.line .ground (p2cv l.start.pt hs) (p2cv l.stop.pt hs) 4 ∈ k.seq.flatMap (segCmds hs)) :=
  ⟨fun c hc => ⟨List.mem_flatMap.2 ⟨_, hc, by simp [segCmds]⟩, List.mem_flatMap.2 ⟨_, hc, by simp [segCmds, p2cv]⟩⟩, fun l hl => List.mem_flatMap.2 ⟨_, hl, by simp [segCmds]⟩⟩

/-- **C112 (a curve).**  Drawing a valid curve returned by `find_path` ends; on top of the geometry of the segments it draws
the polygon from `start` through all way points of the motion in order, one small arrow at each of them, the arrow of the goal
and the arrow of the start.  The curve is not changed except that its iteration is at the end: `has_next()` is false until
`reset_iteration()` is called, then it yields the way points again. -/
theorem draw_findPath (g g' : Gen) (clamp : ℝ → ℝ) (start goal : Pose) (map : MapIf) (ig : Bool)
    (hE : (g.env clamp map ig).Sane) (halt : ∀ c ∈ g.curves, Alternating (elemsOf c.seq))
    (k : Curve) (h : g.findPath clamp start goal map ig = .ok (g', some k)) (hv : k.isValid = true) (hs : Int) :
    ∃ ps, List.Forall₂ SameConfig ps (waypoints (g.radius / map.res) (g.maxWp / map.res) start (motion k)) ∧
      ∀ fuel, ps.length ≤ fuel → ∃ k', draw (g.env clamp map ig) false hs fuel k = .ok (some
          (k.seq.flatMap (segCmds hs) ++
            List.zipWith (fun a b => Cmd.line .trajectory (p2cv a.pt hs) (p2cv b.pt hs) 1) (start :: ps) ps ++ ps.flatMap (fun n => arrow hs .way n (4 / 10)) ++
            arrow hs .goal goal 1 ++ arrow hs .start start 1, k')) ∧
        k'.start = start ∧ k'.goal = goal ∧ k'.weight = k.weight ∧ k'.hasNext.1 = false ∧
        (k'.reset (g.env clamp map ig)).collect (g.env clamp map ig) fuel = .ok (some ps) := by
  obtain ⟨pre, z, hz⟩ := findPath_last g g' clamp start goal map ig hE halt k h
  obtain ⟨ps, c1, c2⟩ := findPath_waypoints g g' clamp start goal map ig hE halt k h
  obtain ⟨m1, m2, -⟩ := findPath_motion g g' clamp hE.clamp start goal map ig (lt_of_lt_of_le one_pos hE.radius) halt k h
  have hps : ps = allPoses (g.env clamp map ig) k.seq := by
    have a := c1 _ (le_max_left ps.length (allPoses (g.env clamp map ig) k.seq).length)
    rw [collect_all _ k pre z hz _ (le_max_right _ _)] at a
    injection a with a
    exact (Option.some.inj a).symm
  refine ⟨ps, c2, fun fuel hf => ?_⟩
  obtain ⟨i1, r1⟩ := reset_rem (g.env clamp map ig) k pre z hz
  obtain ⟨d, d1, d2, d3, d4, d5, d6, d7⟩ := drain_rem (g.env clamp map ig) fuel _ i1 (by rw [r1, ← hps]; exact hf)
  have hrd : ∀ {d : Curve}, Read (g.env clamp map ig) k d →
      (∃ pre z, d.seq = pre ++ [.circ z]) ∧ allPoses (g.env clamp map ig) d.seq = ps := by
    intro d hd
    have hap : ∀ l : List Seg, allPoses (g.env clamp map ig) l = (l.map (Seg.reset (g.env clamp map ig))).flatMap Seg.rem := by
      intro l; simp [allPoses, List.flatMap_map]
    refine ⟨?_, by rw [hap, hd.seq, ← hap, hps]⟩
    have hseq := hd.seq
    have hne : d.seq ≠ [] := by
      intro h0; rw [h0, hz] at hseq; simp at hseq
    obtain ⟨q, s, hq⟩ : ∃ q s, d.seq = q ++ [s] := ⟨_, _, (List.dropLast_append_getLast hne).symm⟩
    have h1 := congrArg List.getLast? hseq
    rw [hq, hz] at h1
    simp only [List.map_append, List.map_cons, List.map_nil, List.getLast?_append,
      List.getLast?_singleton, Option.some_or, Option.some.injEq] at h1
    cases s with
    | line l => simp [Seg.reset] at h1
    | circ z' => exact ⟨q, z', hq⟩
  have trans : ∀ {a b x : Curve}, Read (g.env clamp map ig) a b → Read (g.env clamp map ig) b x →
      Read (g.env clamp map ig) a x := by
    intro a b x hab hbx
    induction hbx with
    | refl => exact hab
    | reset _ ih => exact .reset ih
    | hasNext _ ih => exact .hasNext ih
    | next _ hn ih => exact .next ih hn
  have hkd := trans (.reset .refl) d4
  obtain ⟨⟨pre', z', hz'⟩, ap⟩ := hrd hkd
  obtain ⟨i2, r2⟩ := reset_rem (g.env clamp map ig) d pre' z' hz'
  obtain ⟨f, f1, f2, f3, f4, f5, f6, f7⟩ := drain_rem (g.env clamp map ig) fuel _ i2 (by rw [r2, ap]; exact hf)
  have hkf := trans (.reset hkd) f4
  obtain ⟨⟨pre'', z'', hz''⟩, ap'⟩ := hrd hkf
  have g1 : f.start = start := f5.trans (d5.trans m1)
  have g2 : f.goal = goal := f6.trans (d6.trans m2)
  refine ⟨f, ?_, g1, g2, f7.trans d7, ?_, ?_⟩
  · unfold draw
    rw [if_neg (by simp), if_pos hv, d1, CRes.ok_bind]
    simp only
    rw [f1, CRes.ok_bind, r1, r2, ap, ← hps, m1]
    simp only
    rw [g1, g2, polyline_eq]
    rfl
  · have := (Curve.hasNext_iff f2).2
    rw [f3] at this
    simpa using this
  · rw [collect_all _ f pre'' z'' hz'' fuel (by rw [ap']; exact hf), ap']

/-- **C112 (nothing to draw).**  An empty picture or a curve that is not valid: nothing is drawn, the curve is untouched. -/
theorem draw_nothing (E : RSEnv) (empty : Bool) (hs : Int) (fuel : Nat) (c : Curve) (h : empty = true ∨ c.isValid = false) :
    draw E empty hs fuel c = .ok (some ([], c)) := by
  unfold draw
  rcases h with rfl | h
  · simp
  · rw [h]; cases empty <;> simp

/-! ### Arrows -/

/-- **C112 (arrows).**  The arrow of a pose consists of the shaft from the pose to the point 18 pixels ahead and of two barbs
from there to the points 12 pixels ahead and 5 pixels to either side, all scaled. -/
theorem arrow_corners (hs : Int) (pen : Pen) (pose : Pose) (scale : ℝ) :
    let at' := fun a b : ℝ => ahead pose.x pose.y (Real.cos pose.theta) (Real.sin pose.theta) (a * scale) (b * scale)
    let px := fun q : ℝ × ℝ => p2cv ⟨q.1, q.2⟩ hs
    arrow hs pen pose scale = [.line pen (p2cv pose.pt hs) (px (at' 18 0)) (truncC (2 * scale)),
      .line pen (px (at' 18 0)) (px (at' 12 (-5))) (truncC (2 * scale)),
      .line pen (px (at' 18 0)) (px (at' 12 5)) (truncC (2 * scale))] := by
  have e : ∀ a b : ℝ, pose.pt + (P2.smul ⟨a, b⟩ scale).rotate pose.theta =
      ⟨(ahead pose.x pose.y (Real.cos pose.theta) (Real.sin pose.theta) (a * scale) (b * scale)).1,
       (ahead pose.x pose.y (Real.cos pose.theta) (Real.sin pose.theta) (a * scale) (b * scale)).2⟩ := by
    intro a b
    have hx : ∀ p q : P2, p.x = q.x → p.y = q.y → p = q := by
      intro p q h1 h2; cases p; cases q; simp_all
    apply hx <;> simp only [P2.add_x, P2.add_y, Pose.pt, P2.rotate, P2.smul, ahead] <;> ring
  simp only [arrow, e]

/-- **C112, finding.**  The small arrows are drawn with line thickness 0, which `cv::line` rejects (OpenCV 3 and later), the
big ones with thickness 2. -/
theorem arrow_thickness : truncC (2 * (4 / 10 : ℝ)) = 0 ∧ truncC (2 * (1 : ℝ)) = 2 :=
  ⟨truncC_eq_zero (by norm_num) (by norm_num), by
    rw [truncC_nonneg (by norm_num), Int.floor_eq_iff]; constructor <;> norm_num⟩

/-- **C112, finding, for every drawing.**  Whenever a valid curve of `find_path` is drawn, `cv::line` is called with
thickness 0. -/
theorem draw_zero_thickness (g g' : Gen) (clamp : ℝ → ℝ) (start goal : Pose) (map : MapIf) (ig : Bool)
    (hE : (g.env clamp map ig).Sane) (halt : ∀ c ∈ g.curves, Alternating (elemsOf c.seq))
    (k : Curve) (h : g.findPath clamp start goal map ig = .ok (g', some k)) (hv : k.isValid = true) (hs : Int) :
    ∃ n, ∀ fuel, n ≤ fuel → ∃ cmds k', draw (g.env clamp map ig) false hs fuel k = .ok (some (cmds, k')) ∧
      ∃ p q, Cmd.line .way p q 0 ∈ cmds := by
  obtain ⟨ps, p1, p2⟩ := draw_findPath g g' clamp start goal map ig hE halt k h hv hs
  obtain ⟨pre, z, hz⟩ := findPath_last g g' clamp start goal map ig hE halt k h
  have hne : ps ≠ [] := by
    obtain ⟨k', -, -, -, -, -, e⟩ := p2 (max ps.length (allPoses (g.env clamp map ig) k.seq).length) (le_max_left _ _)
    intro h0
    obtain ⟨qs, c1, c2⟩ := findPath_waypoints g g' clamp start goal map ig hE halt k h
    have hq := c1 _ (le_max_left qs.length (allPoses (g.env clamp map ig) k.seq).length)
    rw [collect_all _ k pre z hz _ (le_max_right _ _)] at hq
    injection hq with hq
    have hq' := Option.some.inj hq
    have l1 := p1.length_eq
    have l2 := c2.length_eq
    have : qs = [] := List.length_eq_zero_iff.1 (by rw [l2, ← l1, h0]; rfl)
    rw [this] at hq'
    have hz2 := allPoses_ne (E := g.env clamp map ig) (pre := pre) (Circ.rem_reset_ne (g.env clamp map ig) z) (Nat.zero_le _)
    rw [List.drop_zero, ← hz] at hz2
    exact hz2 hq'
  obtain ⟨p, rest, rfl⟩ := List.exists_cons_of_ne_nil hne
  refine ⟨(p :: rest).length, fun fuel hf => ?_⟩
  obtain ⟨k', e, -⟩ := p2 fuel hf
  refine ⟨_, k', e, p2cv p.pt hs, p2cv (p.pt + (P2.smul ⟨18, 0⟩ (4 / 10)).rotate p.theta) hs, ?_⟩
  · simp only [List.mem_append, List.mem_flatMap]
    left; left; right
    refine ⟨p, by simp, ?_⟩
    simp [arrow, arrow_thickness.1]

end PathPlanning.CurveRender
