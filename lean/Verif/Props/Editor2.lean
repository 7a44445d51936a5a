import Verif.Props.Editor

/-!
# C115 — gestures
-/

namespace PathPlanning.Editor

open Eval

noncomputable section

theorem run_append (maze curve : Gen) : ∀ (a b : List Event) (e : Ed),
    e.run maze curve (a ++ b) = (e.run maze curve a >>= fun e' => e'.run maze curve b) := by
  intro a
  induction a with
  | nil => intro b e; rfl
  | cons ev a ih =>
    intro b e
    unfold Ed.run at *
    rw [List.cons_append, List.foldlM_cons, List.foldlM_cons]
    cases e.step maze curve ev with
    | ok e1 => rw [CRes.ok_bind, CRes.ok_bind]; exact ih b e1
    | throw t => rfl
    | ub => rfl

/-- Movements while a button is held. -/
theorem run_moves {maze curve : Gen} : ∀ (moves : List (Int × Int)) {e : Ed}, e.drag ≠ .none →
    ∃ e', e.run maze curve (moves.map (fun r => Event.mouse .move r.1 r.2)) = .ok e' ∧ e'.map = e.map ∧ e'.s.w = e.s.w ∧
      e'.s.h = e.s.h ∧ e'.s.res = e.s.res ∧ e'.s.img = e.s.img ∧ e'.mode = e.mode ∧ e'.drag = e.drag ∧ e'.ds = e.ds ∧
      e'.disk = e.disk ∧ (e.mode ≠ .start → e'.s.start = e.s.start) ∧ (e.mode ≠ .goal → e'.s.goal = e.s.goal) ∧
      (Draws e.mode → e'.sel.1 = (moves.getLast?.map fun r => |r.1 - e.ds.1|).getD e.sel.1) := by
  intro moves
  induction moves with
  | nil =>
    intro e _
    exact ⟨e, rfl, rfl, rfl, rfl, rfl, rfl, rfl, rfl, rfl, rfl, fun _ => rfl, fun _ => rfl, fun _ => rfl⟩
  | cons r rs ih =>
    intro e hd
    have d := onDrag_spec e false r.1 r.2
    have hdisk : (e.onDrag false r.1 r.2).disk = e.disk := by
      unfold Ed.onDrag
      cases e.mode <;> rfl
    have hsel : Draws e.mode → (e.onDrag false r.1 r.2).sel.1 = |r.1 - e.ds.1| := by
      intro hdr
      unfold Ed.onDrag
      rcases hdr with hm | hm | hm <;> rw [hm] <;> rfl
    have hstep : e.step maze curve (Event.mouse .move r.1 r.2) = .ok { Ed.onDrag e false r.1 r.2 with refresh := true } := by
      simp only [Ed.step, Ed.mouse]
      rw [if_neg hd]
    obtain ⟨e', h1, h2, h3, h4, h5, h6, h7, h8, h9, h10, h11, h12, h13⟩ :=
      ih (e := { Ed.onDrag e false r.1 r.2 with refresh := true }) (by simp only; rw [d.drag]; exact hd)
    simp only at h2 h3 h4 h5 h6 h7 h8 h9 h10 h11 h12 h13
    refine ⟨e', ?_, h2.trans d.map, h3.trans d.w, h4.trans d.h, h5.trans d.res, h6.trans d.img, h7.trans d.mode,
      h8.trans d.drag, h9.trans d.ds, h10.trans hdisk, ?_, ?_, ?_⟩
    · unfold Ed.run
      rw [List.map_cons, List.foldlM_cons, hstep, CRes.ok_bind]
      exact h1
    · intro hm
      exact (h11 (by rw [d.mode]; exact hm)).trans (d.start hm)
    · intro hm
      exact (h12 (by rw [d.mode]; exact hm)).trans (d.goal hm)
    · intro hdr
      rw [h13 (by rw [d.mode]; exact hdr), d.ds, hsel hdr]
      cases rs with
      | nil => simp
      | cons a as => rw [List.getLast?_cons_cons, List.getLast?_eq_some_getLast (List.cons_ne_nil a as)]; rfl

/-- A gesture: the press, the movements and the release. -/
theorem run_gesture {maze curve : Gen} {e : Ed} (left : Bool) (p : Int × Int) (moves : List (Int × Int)) (q : Int × Int) :
    ∃ e1 : Ed, e1.map = e.map ∧ e1.s.w = e.s.w ∧ e1.s.h = e.s.h ∧ e1.s.res = e.s.res ∧ e1.s.img = e.s.img ∧
      e1.mode = e.mode ∧ (e1.drag = .left ↔ left = true) ∧ e1.ds = p ∧ e1.disk = e.disk ∧
      (e.mode ≠ .start → e1.s.start = e.s.start) ∧ (e.mode ≠ .goal → e1.s.goal = e.s.goal) ∧
      (Draws e.mode → e1.sel.1 = (moves.getLast?.map fun r => |r.1 - p.1|).getD e.sel.1) ∧
      e.run maze curve (Spec.gesture left p moves q) = (e1.onUp maze curve q.1 q.2 >>= fun e2 =>
        pure { Ed.onDrag { e2 with drag := .none } true q.1 q.2 with refresh := true }) := by
  set e0 : Ed := { e with
    drag := if left then .left else .right
    ds := p
    refresh := true } with he0
  obtain ⟨e1, h1, h2, h3, h4, h5, h6, h7, h8, h9, h10, h11, h12, h13⟩ := run_moves (maze := maze) (curve := curve) moves (e := e0)
    (by rw [he0]; cases left <;> simp)
  refine ⟨e1, h2, h3, h4, h5, h6, h7, ?_, h9, h10, h11, h12, h13, ?_⟩
  · rw [h8, he0]
    cases left <;> simp
  · unfold Ed.run Spec.gesture
    rw [List.foldlM_cons]
    have hs : e.step maze curve (Event.mouse (if left then .ldown else .rdown) p.1 p.2) = .ok e0 := by
      cases left <;> rfl
    rw [hs, CRes.ok_bind]
    have ha := run_append maze curve (moves.map (fun r => Event.mouse .move r.1 r.2))
      [.mouse (if left then .lup else .rup) q.1 q.2] e0
    rw [h1, CRes.ok_bind] at ha
    refine ha.trans ?_
    unfold Ed.run
    rw [List.foldlM_cons]
    have hu : ∀ a : CRes Ed, (a >>= fun s' => List.foldlM (Ed.step maze curve) s' []) = a := by
      intro a; cases a <;> rfl
    rw [hu]
    cases left <;> rfl

/-- **C115 (setting the start).**  A drag in the start mode puts the start on the cell above the one pressed (C84), heads it
along the drag, changes nothing else and saves everything. -/
theorem gesture_start {maze curve : Gen} {e : Ed} (hok : e.Ok) (hs : e.Shows) (hm : e.mode = .start) (left : Bool)
    (p : Int × Int) (moves : List (Int × Int)) (q : Int × Int) {x y : Int} (hp1 : 0 ≤ p.1) (hp2 : 0 ≤ p.2)
    (hsq : PathPlanning.Spec.InSquare SCALE (e.s.h * SCALE) x y p.2 p.1) : ∃ e', e.run maze curve (Spec.gesture left p moves q) = .ok e' ∧
      e'.s = { e.s with start := ((x : ℝ), ((y + 1 : Int) : ℝ), dragAngle p.1 p.2 q.1 q.2) } ∧ Spec.OnDisk e' ∧ Spec.Shows e' ∧
      e'.drag = .none ∧ e'.mode = .start := by
  obtain ⟨e1, h2, h3, h4, h5, h6, h7, h8, h9, h10, h11, h12, h13, h14⟩ := run_gesture (maze := maze) (curve := curve) (e := e)
    left p moves q
  have hup : e1.onUp maze curve q.1 q.2 = .ok e1 := by
    unfold Ed.onUp
    rw [h7, hm]
  rw [hup, CRes.ok_bind] at h14
  have hu := onUp_spec (ok_of hok h2 h3 h4) (shows_of hs h2 h3 h4 h6) hup
  obtain ⟨p1, p2, -⟩ := hu.drag_end q.1 q.2 true
  have d := onDrag_spec { e1 with drag := .none } true q.1 q.2
  refine ⟨_, h14, ?_, stored_onDisk.1 (p2 (by rw [h7, hm]; simp)), p1.shows, d.drag, d.mode.trans (h7.trans hm)⟩
  have hmode : e1.mode = .start := h7.trans hm
  simp only [Ed.onDrag]
  rw [hmode]
  simp only [if_true, Ed.save]
  rw [St.mk.injEq, h9, h4, clickCell_above hp1 hp2 hsq]
  exact ⟨h3, rfl, h5, h6, rfl, h12 (by rw [hm]; simp)⟩

/-- **C115 (setting the goal).** -/
theorem gesture_goal {maze curve : Gen} {e : Ed} (hok : e.Ok) (hs : e.Shows) (hm : e.mode = .goal) (left : Bool)
    (p : Int × Int) (moves : List (Int × Int)) (q : Int × Int) {x y : Int} (hp1 : 0 ≤ p.1) (hp2 : 0 ≤ p.2)
    (hsq : PathPlanning.Spec.InSquare SCALE (e.s.h * SCALE) x y p.2 p.1) : ∃ e', e.run maze curve (Spec.gesture left p moves q) = .ok e' ∧
      e'.s = { e.s with goal := ((x : ℝ), ((y + 1 : Int) : ℝ), dragAngle p.1 p.2 q.1 q.2) } ∧ Spec.OnDisk e' ∧ Spec.Shows e' ∧
      e'.drag = .none ∧ e'.mode = .goal := by
  obtain ⟨e1, h2, h3, h4, h5, h6, h7, h8, h9, h10, h11, h12, h13, h14⟩ := run_gesture (maze := maze) (curve := curve) (e := e)
    left p moves q
  have hup : e1.onUp maze curve q.1 q.2 = .ok e1 := by
    unfold Ed.onUp
    rw [h7, hm]
  rw [hup, CRes.ok_bind] at h14
  have hu := onUp_spec (ok_of hok h2 h3 h4) (shows_of hs h2 h3 h4 h6) hup
  obtain ⟨p1, p2, -⟩ := hu.drag_end q.1 q.2 true
  have d := onDrag_spec { e1 with drag := .none } true q.1 q.2
  refine ⟨_, h14, ?_, stored_onDisk.1 (p2 (by rw [h7, hm]; simp)), p1.shows, d.drag, d.mode.trans (h7.trans hm)⟩
  have hmode : e1.mode = .goal := h7.trans hm
  simp only [Ed.onDrag]
  rw [hmode]
  simp only [if_true, Ed.save]
  rw [St.mk.injEq, h9, h4, clickCell_above hp1 hp2 hsq]
  exact ⟨h3, rfl, h5, h6, h11 (by rw [hm]; simp), rfl⟩

/-- **C115 (drawing obstacles).**  A drag in the obstacle mode from the pixel of one cell to the pixel of another (not on a
boundary between cells) makes the rectangle between them occupied (left button) or free (any other), whatever was in between. -/
theorem gesture_obstacle {maze curve : Gen} {e : Ed} (hok : e.Ok) (hs : e.Shows) (hm : e.mode = .obstacle) (left : Bool)
    (p : Int × Int) (moves : List (Int × Int)) (q : Int × Int) {x0 y0 x1 y1 : Int} (hp1 : 0 ≤ p.1) (hp2 : 0 ≤ p.2)
    (hq1 : 0 ≤ q.1) (hq2 : 0 ≤ q.2) (hy0 : 0 ≤ y0) (hy1 : 0 ≤ y1)
    (hs0 : PathPlanning.Spec.InSquare SCALE (e.s.h * SCALE) x0 y0 p.2 p.1) (hs1 : PathPlanning.Spec.InSquare SCALE (e.s.h * SCALE) x1 y1 q.2 q.1)
    (hn0 : ¬ SCALE ∣ p.2) (hn1 : ¬ SCALE ∣ q.2) : ∃ e', e.run maze curve (Spec.gesture left p moves q) = .ok e' ∧
      (∀ x y : Nat, x < e.s.w → y < e.s.h → e'.map.isFree ⟨x, y⟩ = .ok
        (if (min x0 x1 ≤ x ∧ x ≤ max x0 x1) ∧ (min y0 y1 ≤ y ∧ y ≤ max y0 y1) then !left else decide (e.s.img y x ≠ 0))) ∧
      e'.s.start = e.s.start ∧ e'.s.goal = e.s.goal ∧ Spec.OnDisk e' := by
  obtain ⟨e1, h2, h3, h4, h5, h6, h7, h8, h9, h10, h11, h12, h13, h14⟩ := run_gesture (maze := maze) (curve := curve) (e := e)
    left p moves q
  have hok1 := ok_of hok h2 h3 h4
  have hs1' := shows_of hs h2 h3 h4 h6
  obtain ⟨e2, hup, hu, himg⟩ := obstacle_spec (maze := maze) (curve := curve) hok1 (h7.trans hm) q.1 q.2
  rw [hup, CRes.ok_bind] at h14
  obtain ⟨p1, p2, -⟩ := hu.drag_end q.1 q.2 true
  have d := onDrag_spec { e2 with drag := .none } true q.1 q.2
  have hmode2 : e2.mode = .obstacle := hu.mode.trans (h7.trans hm)
  obtain ⟨s1, s2⟩ := d.same (by simp only; rw [hmode2]; simp)
  simp only at s1
  refine ⟨_, h14, ?_, ?_, ?_, stored_onDisk.1 (p2 (by rw [h7, hm]; simp))⟩
  · intro x y hx hy
    have hfree := (p1.shows x y (by rw [p1.w, h3]; exact hx) (by rw [p1.h, h4]; exact hy)).1
    have hv : ({ Ed.onDrag { e2 with drag := .none } true q.1 q.2 with refresh := true } : Ed).s.img y x =
        if (min x0 x1 ≤ (x : Int) ∧ (x : Int) ≤ max x0 x1) ∧ (min y0 y1 ≤ (y : Int) ∧ (y : Int) ≤ max y0 y1) then
          (if left then 0 else 255) else e.s.img y x := by
      simp only
      rw [s1, himg]
      simp only
      rw [h9, h4, drawObstacle_rect (K := ℝ) _ _ hp1 hp2 hq1 hq2 hy0 hy1 hs0 hs1 hn0 hn1]
      by_cases hin : (min x0 x1 ≤ (x : Int) ∧ (x : Int) ≤ max x0 x1) ∧ (min y0 y1 ≤ (y : Int) ∧ (y : Int) ≤ max y0 y1)
      · rw [if_pos hin, if_pos hin]
        cases left
        · have : ¬ e1.drag = .left := fun h => by simpa using h8.1 h
          simp [this]
        · have : e1.drag = .left := h8.2 rfl
          simp [this]
      · rw [if_neg hin, if_neg hin]
        simp [h6]
    rw [hfree]
    congr 1
    simp only at hv ⊢
    simp only [hv]
    by_cases hin : (min x0 x1 ≤ (x : Int) ∧ (x : Int) ≤ max x0 x1) ∧ (min y0 y1 ≤ (y : Int) ∧ (y : Int) ≤ max y0 y1)
    · simp only [if_pos hin]
      cases left <;> rfl
    · simp only [if_neg hin]
  · simp only
    rw [s1, (hu.poses (by rw [h7, hm]; simp) (by rw [h7, hm]; simp)).1, h11 (by rw [hm]; simp)]
  · simp only
    rw [s1, (hu.poses (by rw [h7, hm]; simp) (by rw [h7, hm]; simp)).2, h12 (by rw [hm]; simp)]

/-- **C115, finding (width of a maze).**  The width of the corridors is taken from the last movement before the release, not from the
release itself; without any movement it is whatever the last rectangle was (of an earlier maze or obstacle). -/
theorem gesture_maze {maze curve : Gen} {e : Ed} (hok : e.Ok) (hs : e.Shows) (hm : e.mode = .maze) (left : Bool)
    (p : Int × Int) (moves : List (Int × Int)) (q : Int × Int) : ∃ img0 : Nat → Nat → UInt8,
      (∀ y x, y < e.s.h → x < e.s.w → img0 y x = 0) ∧
      ∀ r, maze (max 1 (((moves.getLast?.map fun m => |m.1 - p.1|).getD e.sel.1).tdiv 8)) img0 e.s.start e.s.goal = .ok r →
        ∃ e', e.run maze curve (Spec.gesture left p moves q) = .ok e' ∧
          e'.s = { e.s with img := r.1, start := r.2.1, goal := r.2.2 } ∧ Spec.OnDisk e' ∧ Spec.Shows e' ∧
          e'.sel = (|q.1 - p.1|, 4) ∧ e'.mode = .maze := by
  obtain ⟨e1, h2, h3, h4, h5, h6, h7, h8, h9, h10, h11, h12, h13, h14⟩ := run_gesture (maze := maze) (curve := curve) (e := e)
    left p moves q
  have hok1 := ok_of hok h2 h3 h4
  have hs1' := shows_of hs h2 h3 h4 h6
  have hm1 : e1.mode = .maze := h7.trans hm
  obtain ⟨img0, hi, ha, -⟩ := make_spec (gen := maze) hok1 e1.sel.1
  refine ⟨img0, by rw [← h3, ← h4]; exact hi, ?_⟩
  intro r hr
  rw [← h13 (by rw [hm]; exact Or.inr (Or.inl rfl)), ← h11 (by rw [hm]; simp), ← h12 (by rw [hm]; simp)] at hr
  obtain ⟨e2, g1, g2, g3, g4, g5, g6⟩ := ha r hr
  have hup : e1.onUp maze curve q.1 q.2 = .ok { e2 with
      sel := (-1, -1)
      repaint := true } := by
    unfold Ed.onUp
    rw [hm1]
    simp only
    rw [g1]
    rfl
  have hu := onUp_spec hok1 hs1' hup
  rw [hup, CRes.ok_bind] at h14
  obtain ⟨p1, p2, -⟩ := hu.drag_end q.1 q.2 true
  have hm2 : e2.mode = .maze := g6.mode.trans hm1
  refine ⟨_, h14, ?_, stored_onDisk.1 (p2 (by rw [hm1]; simp)), p1.shows, ?_, ?_⟩
  · simp only [Ed.onDrag]
    rw [hm2]
    simp only
    rw [g5, St.mk.injEq]
    exact ⟨h3, h4, h5, rfl, rfl, rfl⟩
  · simp only [Ed.onDrag]
    rw [hm2]
    simp only [rectSize]
    rw [g6.ds, h9]
    simp
  · simp only [Ed.onDrag]
    rw [hm2]

/-- **C115, finding (width of a space filling curve).**  As for mazes, with the other generator: the width is taken from the last movement before the release, not from the
release itself; without any movement it is whatever the last rectangle was (of an earlier drag). -/
theorem gesture_curve {maze curve : Gen} {e : Ed} (hok : e.Ok) (hs : e.Shows) (hm : e.mode = .curve) (left : Bool)
    (p : Int × Int) (moves : List (Int × Int)) (q : Int × Int) : ∃ img0 : Nat → Nat → UInt8,
      (∀ y x, y < e.s.h → x < e.s.w → img0 y x = 0) ∧
      ∀ r, curve (max 1 (((moves.getLast?.map fun m => |m.1 - p.1|).getD e.sel.1).tdiv 8)) img0 e.s.start e.s.goal = .ok r →
        ∃ e', e.run maze curve (Spec.gesture left p moves q) = .ok e' ∧
          e'.s = { e.s with img := r.1, start := r.2.1, goal := r.2.2 } ∧ Spec.OnDisk e' ∧ Spec.Shows e' ∧
          e'.sel = (|q.1 - p.1|, 4) ∧ e'.mode = .curve := by
  obtain ⟨e1, h2, h3, h4, h5, h6, h7, h8, h9, h10, h11, h12, h13, h14⟩ := run_gesture (maze := maze) (curve := curve) (e := e)
    left p moves q
  have hok1 := ok_of hok h2 h3 h4
  have hs1' := shows_of hs h2 h3 h4 h6
  have hm1 : e1.mode = .curve := h7.trans hm
  obtain ⟨img0, hi, ha, -⟩ := make_spec (gen := curve) hok1 e1.sel.1
  refine ⟨img0, by rw [← h3, ← h4]; exact hi, ?_⟩
  intro r hr
  rw [← h13 (by rw [hm]; exact Or.inr (Or.inr rfl)), ← h11 (by rw [hm]; simp), ← h12 (by rw [hm]; simp)] at hr
  obtain ⟨e2, g1, g2, g3, g4, g5, g6⟩ := ha r hr
  have hup : e1.onUp maze curve q.1 q.2 = .ok { e2 with
      sel := (-1, -1)
      repaint := true } := by
    unfold Ed.onUp
    rw [hm1]
    simp only
    rw [g1]
    rfl
  have hu := onUp_spec hok1 hs1' hup
  rw [hup, CRes.ok_bind] at h14
  obtain ⟨p1, p2, -⟩ := hu.drag_end q.1 q.2 true
  have hm2 : e2.mode = .curve := g6.mode.trans hm1
  refine ⟨_, h14, ?_, stored_onDisk.1 (p2 (by rw [hm1]; simp)), p1.shows, ?_, ?_⟩
  · simp only [Ed.onDrag]
    rw [hm2]
    simp only
    rw [g5, St.mk.injEq]
    exact ⟨h3, h4, h5, rfl, rfl, rfl⟩
  · simp only [Ed.onDrag]
    rw [hm2]
    simp only [rectSize]
    rw [g6.ds, h9]
    simp
  · simp only [Ed.onDrag]
    rw [hm2]

/-- **C115, finding (width of a maze, two gestures).**  Two drags in the maze mode, the second a click without a movement: the corridors
of the second maze have the width dragged in the first. -/
theorem maze_stale {maze curve : Gen} {e : Ed} (hok : e.Ok) (hs : e.Shows) (hm : e.mode = .maze) (left : Bool)
    (p : Int × Int) (moves : List (Int × Int)) (q p' q' : Int × Int) (hf : Spec.Finishes maze) :
    ∃ e' img0 r, e.run maze curve (Spec.gesture left p moves q ++ Spec.gesture left p' [] q') = .ok e' ∧
      (∃ s t, maze (max 1 (|q.1 - p.1|.tdiv 8)) img0 s t = .ok r) ∧ e'.s.img = r.1 := by
  obtain ⟨img0, -, ha⟩ := gesture_maze (maze := maze) (curve := curve) hok hs hm left p moves q
  obtain ⟨r, hr⟩ := hf (max 1 (((moves.getLast?.map fun m => |m.1 - p.1|).getD e.sel.1).tdiv 8)) img0 e.s.start e.s.goal
  obtain ⟨e1, h1, h2, h3, h4, h5, h6⟩ := ha r hr
  obtain ⟨q1, -⟩ := run_spec _ hok hs h1
  obtain ⟨img1, -, hb⟩ := gesture_maze (maze := maze) (curve := curve) q1.ok q1.shows h6 left p' [] q'
  obtain ⟨r2, hr2⟩ := hf (max 1 (((([] : List (Int × Int)).getLast?.map fun m => |m.1 - p'.1|).getD e1.sel.1).tdiv 8)) img1
    e1.s.start e1.s.goal
  obtain ⟨e2, k1, k2, -⟩ := hb r2 hr2
  refine ⟨e2, img1, r2, ?_, ⟨e1.s.start, e1.s.goal, ?_⟩, by rw [k2]⟩
  · rw [run_append, h1, CRes.ok_bind, k1]
  · have : (([] : List (Int × Int)).getLast?.map fun m => |m.1 - p'.1|).getD e1.sel.1 = |q.1 - p.1| := by
      simp [h5]
    rw [this] at hr2
    exact hr2

/-- **C115 (focus).**  In the focus mode, which a new evaluator starts in, no gesture changes the picture, the start or the goal. -/
theorem gesture_focus {maze curve : Gen} {e : Ed} (hm : e.mode = .focus) (left : Bool) (p : Int × Int)
    (moves : List (Int × Int)) (q : Int × Int) : ∃ e', e.run maze curve (Spec.gesture left p moves q) = .ok e' ∧
      e'.s = e.s ∧ e'.map = e.map ∧ e'.disk = e.disk ∧ e'.focus = some (p, q) := by
  obtain ⟨e1, h2, h3, h4, h5, h6, h7, h8, h9, h10, h11, h12, h13, h14⟩ := run_gesture (maze := maze) (curve := curve) (e := e)
    left p moves q
  have hm1 : e1.mode = .focus := h7.trans hm
  have hup : e1.onUp maze curve q.1 q.2 = .ok { e1 with
      focus := some (e1.ds, (q.1, q.2))
      repaint := true } := by
    unfold Ed.onUp
    split <;> simp_all
  rw [hup, CRes.ok_bind] at h14
  refine ⟨_, h14, ?_, ?_, ?_, ?_⟩
  · simp only [Ed.onDrag]
    rw [hm1]
    simp only
    have : e1.s = e.s := by
      cases hx : e1.s
      cases hy : e.s
      simp only [hx, hy, hm] at h3 h4 h5 h6 h11 h12
      rw [St.mk.injEq]
      exact ⟨h3, h4, h5, h6, h11 (by simp), h12 (by simp)⟩
    exact this
  · simp only [Ed.onDrag]
    rw [hm1]
    exact h2
  · simp only [Ed.onDrag]
    rw [hm1]
    exact h10
  · simp only [Ed.onDrag]
    rw [hm1]
    simp only
    rw [h9]

theorem inv_zero (v : UInt8) : 255 - v = 0 ↔ v = 255 := by
  rw [← UInt8.toNat_inj, ← UInt8.toNat_inj, UInt8.toNat_sub]
  have := UInt8.toNat_lt v
  simp only [UInt8.reduceToNat, UInt8.toNat_ofNat]
  omega

theorem inv_inv (v : UInt8) : 255 - (255 - v) = v := by
  rw [← UInt8.toNat_inj, UInt8.toNat_sub, UInt8.toNat_sub]
  have := UInt8.toNat_lt v
  simp only [UInt8.reduceToNat, UInt8.toNat_ofNat]
  omega

/-- **C115 (keys c and i).**  `c` makes every cell free; `i` exchanges free and occupied of a black and white picture; both save. -/
theorem key_clear {maze curve : Gen} {e : Ed} (hok : e.Ok) : ∃ e', e.run maze curve [.key 99] = .ok e' ∧
    (∀ x y, x < e.s.w → y < e.s.h → e'.map.isFree ⟨x, y⟩ = .ok true) ∧ e'.s.start = e.s.start ∧ e'.s.goal = e.s.goal ∧
    Spec.OnDisk e' := by
  obtain ⟨e1, g1, g2, g3, g4, g5, g6, g7⟩ := clear_spec hok true
  refine ⟨{ e1 with repaint := true }, ?_, ?_, g4.start, g4.goal, stored_onDisk.1 (stored_of (g7 rfl) rfl rfl)⟩
  · simp only [Ed.run, List.foldlM_cons, List.foldlM_nil, Ed.step]
    rw [key_c, g1]
    rfl
  · intro x y hx hy
    have := (g3 x y (by rw [g4.w]; exact hx) (by rw [g4.h]; exact hy)).1
    simp only
    rw [this, g6 y x hy hx]
    rfl

theorem key_invert {maze curve : Gen} {e : Ed} (hok : e.Ok) : ∃ e', e.run maze curve [.key 105] = .ok e' ∧
    (∀ x y, x < e.s.w → y < e.s.h → e'.map.isOccupied ⟨x, y⟩ = .ok (decide (e.s.img y x = 255))) ∧
    (∀ x y, x < e.s.w → y < e.s.h → e'.s.img y x = 255 - e.s.img y x) ∧
    e'.s.start = e.s.start ∧ e'.s.goal = e.s.goal ∧ Spec.OnDisk e' ∧ e'.Ok ∧ e'.s.w = e.s.w ∧ e'.s.h = e.s.h := by
  obtain ⟨e1, g1, g2, g3, g4, g5, g6, g7⟩ := invert_spec' hok true
  refine ⟨{ e1 with repaint := true }, ?_, ?_, fun x y hx hy => g6 y x hy hx, g4.start, g4.goal,
    stored_onDisk.1 (stored_of (g7 rfl) rfl rfl), ok_of g2 rfl rfl rfl, g4.w, g4.h⟩
  · simp only [Ed.run, List.foldlM_cons, List.foldlM_nil, Ed.step]
    rw [key_i, g1]
    rfl
  · intro x y hx hy
    have := (g3 x y (by rw [g4.w]; exact hx) (by rw [g4.h]; exact hy)).2
    simp only
    rw [this, g6 y x hy hx]
    congr 1
    exact decide_eq_decide.2 (inv_zero _)

/-- **C115 (inverting twice).** -/
theorem key_invert_twice {maze curve : Gen} {e : Ed} (hok : e.Ok) : ∃ e', e.run maze curve [.key 105, .key 105] = .ok e' ∧
    ∀ x y, x < e.s.w → y < e.s.h → e'.s.img y x = e.s.img y x := by
  obtain ⟨e1, h1, -, h2, -, -, -, h3, h4, h5⟩ := key_invert (maze := maze) (curve := curve) hok
  obtain ⟨e2, k1, -, k2, -⟩ := key_invert (maze := maze) (curve := curve) h3
  refine ⟨e2, ?_, ?_⟩
  · rw [show ([Event.key 105, Event.key 105]) = [Event.key 105] ++ [Event.key 105] from rfl, run_append, h1, CRes.ok_bind, k1]
  · intro x y hx hy
    rw [k2 x y (by rw [h4]; exact hx) (by rw [h5]; exact hy), h2 x y hx hy, inv_inv]

/-- **C115, finding (a mode key during a drag).**  Pressing f while dragging the start leaves the changed start unsaved although no
button is held any more: a new evaluator starts with the old one. -/
theorem mode_key_loses {maze curve : Gen} (halfPi : ℝ) {w h : Nat} {res : ℝ} (hsz : w * h < 2 ^ 32) :
    ∃ e0 e e1, Ed.new halfPi ⟨none, none⟩ w h res = .ok e0 ∧
      e0.run maze curve [.key 115, .mouse .ldown 80 20, .mouse .move 90 20, .key 102, .mouse .lup 95 20] = .ok e ∧
      e.s.start.1 = 10 ∧ Ed.new halfPi e.disk w h res = .ok e1 ∧ e1.s.start.1 = 1 := by
  classical
  have hlen : w * h ≤ (GridMap.mk' w h res : GridMap ℝ).data.length := by
    simp only [GridMap.mk', List.length_replicate]
    rw [show wrapU (w * h) = w * h from Nat.mod_eq_of_lt hsz]
  have hnew : ∀ d s, construct halfPi d w h res = .ok (s, saveMap s) → s.w = w → s.h = h → ∃ e, Ed.new halfPi d w h res = .ok e ∧
      e.s = s ∧ e.disk = saveMap s ∧ e.mode = .focus := by
    intro d s hc hw hh
    obtain ⟨m', g1, -⟩ := generateMap_spec s.img ({ GridMap.mk' w h res with
      lower := 20
      upper := 50 } : GridMap ℝ) hsz hlen rfl rfl rfl
    refine ⟨⟨s, m', saveMap s, .none, .focus, (0, 0), (0, 0), Option.none, false, false, true⟩, ?_, rfl, rfl, rfl⟩
    unfold Ed.new
    simp only
    rw [show (construct halfPi d w h res : CRes (St ℝ × Disk ℝ)) = _ from hc, CRes.ok_bind]
    simp only [hw, hh]
    rw [show generateMap s.img w h _ = _ from g1]
    rfl
  obtain ⟨e0, h0, h1, h2, h3⟩ := hnew ⟨none, none⟩ (initDefault halfPi w h res).1 rfl rfl rfl
  have r1 : e0.step maze curve (.key 115) = .ok { e0 with
      mode := .start
      repaint := true } := rfl
  set a1 : Ed := { e0 with
      mode := .start
      repaint := true } with ha1
  set a2 : Ed := { a1 with
      drag := .left
      ds := (80, 20)
      refresh := true } with ha2
  have r2 : a1.step maze curve (.mouse .ldown 80 20) = .ok a2 := rfl
  set a3 : Ed := { a2 with s := { a2.s with start :=
      (((clickCell a2.s.h 80 20).1 : ℝ), ((clickCell a2.s.h 80 20).2 : ℝ), dragAngle 80 20 90 20) } } with ha3
  have r3 : a2.step maze curve (.mouse .move 90 20) = .ok a3 := rfl
  set a4 : Ed := { a3 with
      mode := .focus
      repaint := true } with ha4
  have r4 : a3.step maze curve (.key 102) = .ok a4 := rfl
  have r5 : ∃ a5, a4.step maze curve (.mouse .lup 95 20) = .ok a5 ∧ a5.s = a4.s ∧ a5.disk = a4.disk := ⟨_, rfl, rfl, rfl⟩
  obtain ⟨a5, r5, s5, d5⟩ := r5
  obtain ⟨e1, k1, k2, -⟩ := hnew a5.disk (initDefault halfPi w h res).1 (by
    rw [d5, ha4]
    simp only
    rw [ha3, ha2, ha1]
    simp only
    rw [h2]
    exact construct_restores halfPi _) rfl rfl
  refine ⟨e0, a5, e1, h0, ?_, ?_, k1, by rw [k2]; rfl⟩
  · simp only [Ed.run, List.foldlM_cons, List.foldlM_nil]
    rw [r1, CRes.ok_bind, r2, CRes.ok_bind, r3, CRes.ok_bind, r4, CRes.ok_bind, r5, CRes.ok_bind]
    rfl
  · rw [s5, ha4, ha3]
    simp [clickCell, SCALE]

/-- **C115 (a first start).**  Without files a new evaluator is free everywhere, starts at (1, 1) heading `M_PI / 2`, has its goal in the
last cell heading 0, and saves this. -/
theorem new_defined (halfPi : ℝ) (w h : Nat) (res : ℝ) (hsz : w * h < 2 ^ 32) : ∃ e0, Ed.new halfPi ⟨none, none⟩ w h res = .ok e0 ∧
    (∀ x y, x < w → y < h → e0.map.isFree ⟨x, y⟩ = .ok true) ∧ e0.s.start = (1, 1, halfPi) ∧
    e0.s.goal = ((w : ℝ) - 1, (h : ℝ) - 1, 0) ∧ Spec.OnDisk e0 ∧ e0.mode = .focus ∧ e0.drag = .none ∧
    (∀ y x, e0.s.img y x = 255) := by
  classical
  have hlen : w * h ≤ (GridMap.mk' w h res : GridMap ℝ).data.length := by
    simp only [GridMap.mk', List.length_replicate]
    rw [show wrapU (w * h) = w * h from Nat.mod_eq_of_lt hsz]
  obtain ⟨m', g1, -⟩ := generateMap_spec (fun _ _ => 255) ({ GridMap.mk' w h res with
    lower := 20
    upper := 50 } : GridMap ℝ) hsz hlen rfl rfl rfl
  have hnew : Ed.new halfPi ⟨none, none⟩ w h res = .ok ⟨(initDefault halfPi w h res).1, m', (initDefault halfPi w h res).2, .none, .focus,
      (0, 0), (0, 0), Option.none, false, false, true⟩ := by
    unfold Ed.new
    simp only
    rw [show (construct halfPi ⟨none, none⟩ w h res : CRes (St ℝ × Disk ℝ)) = .ok (initDefault halfPi w h res) from rfl, CRes.ok_bind,
      show generateMap (initDefault halfPi w h res).1.img (initDefault halfPi w h res).1.w (initDefault halfPi w h res).1.h _ = _ from g1]
    rfl
  obtain ⟨n1, n2, n3, n4, n5, n6, n7⟩ := new_spec hsz hnew
  refine ⟨_, hnew, ?_, rfl, rfl, stored_onDisk.1 n3, rfl, rfl, fun _ _ => rfl⟩
  intro x y hx hy
  exact (n2 x y hx hy).1

/-- The hypotheses are met: on a first start of a 20 × 20 evaluator, pressing o and dragging the left button from pixel (20, 20) to
pixel (50, 60) makes exactly the cells (2..6, 12..17) occupied. -/
theorem obstacle_example (maze curve : Gen) : ∃ e0 e, Ed.new (Real.pi / 2) ⟨none, none⟩ 20 20 1 = .ok e0 ∧
    e0.run maze curve (.key 111 :: Spec.gesture true (20, 20) [(30, 30)] (50, 60)) = .ok e ∧
    ∀ x y : Nat, x < 20 → y < 20 → e.map.isFree ⟨x, y⟩ = .ok (!decide ((2 ≤ x ∧ x ≤ 6) ∧ (12 ≤ y ∧ y ≤ 17))) := by
  obtain ⟨e0, h0, -, -, -, -, -, -, himg⟩ := new_defined (Real.pi / 2) 20 20 1 (by norm_num)
  obtain ⟨n1, n2, n3, n4, n5, n6, n7⟩ := new_spec (by norm_num) h0
  have hk : e0.step maze curve (.key 111) = .ok { e0 with
      mode := .obstacle
      repaint := true } := rfl
  have hsq : ∀ {px py x y : Int}, x = px / 8 → y = 19 - py / 8 → PathPlanning.Spec.InSquare SCALE (e0.s.h * SCALE) x y py px := by
    intro px py x y h1 h2
    rw [shown_iff, n6]
    exact ⟨h1, by rw [h2]; norm_num⟩
  obtain ⟨e, h1, h2, -⟩ := gesture_obstacle (maze := maze) (curve := curve) (e := { e0 with
      mode := .obstacle
      repaint := true }) (ok_of n1 rfl rfl rfl) (shows_of n2 rfl rfl rfl rfl) rfl true (20, 20) [(30, 30)] (50, 60)
      (x0 := 2) (y0 := 17) (x1 := 6) (y1 := 12) (by norm_num) (by norm_num) (by norm_num) (by norm_num) (by norm_num) (by norm_num)
      (hsq (by norm_num) (by norm_num)) (hsq (by norm_num) (by norm_num)) (by decide) (by decide)
  refine ⟨e0, e, h0, ?_, ?_⟩
  · unfold Ed.run at *
    rw [List.foldlM_cons, hk, CRes.ok_bind]
    exact h1
  · intro x y hx hy
    rw [h2 x y (by simp only; rw [n5]; exact hx) (by simp only; rw [n6]; exact hy)]
    refine congrArg CRes.ok ?_
    simp only
    rw [himg y x]
    by_cases hin : (2 ≤ x ∧ x ≤ 6) ∧ (12 ≤ y ∧ y ≤ 17)
    · rw [if_pos (by norm_num; omega)]
      simp [hin]
    · rw [if_neg (by norm_num; omega)]
      rw [decide_eq_false hin]
      rfl

end

end PathPlanning.Editor
