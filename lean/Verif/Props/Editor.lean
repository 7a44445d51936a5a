import Verif.Spec.Editor
import Verif.Props.Evaluator

/-!
# C115 — editing with mouse and keyboard
-/

namespace PathPlanning.Editor

open Eval

noncomputable section

/-- The grid map of the editor has the size of the image and the thresholds of the evaluator. -/
structure Ed.Ok (e : Ed) : Prop where
  w : e.map.width = e.s.w
  h : e.map.height = e.s.h
  size : e.s.w * e.s.h < 2 ^ 32
  len : e.s.w * e.s.h ≤ e.map.data.length
  lower : e.map.lower = 20
  upper : e.map.upper = 50
  noInfo : e.map.noInfo = -1

/-- The map shows the image. -/
abbrev Ed.Shows (e : Ed) : Prop := Spec.Shows e

/-- The files contain the image, the start and the goal shown. -/
def Ed.Stored (e : Ed) : Prop := e.disk = saveMap e.s

theorem setValue_keeps {m m' : GridMap ℝ} {c : UCell} {v : UInt8} (h : m.setValue c v = .ok m') :
    m'.data.length = m.data.length ∧ m'.lower = m.lower ∧ m'.upper = m.upper ∧ m'.noInfo = m.noInfo := by
  unfold GridMap.setValue at h
  rw [CRes.bind_eq_ok] at h
  obtain ⟨d, hd, he⟩ := h
  cases he
  unfold vset at hd
  split_ifs at hd
  cases hd
  exact ⟨by simp, rfl, rfl, rfl⟩

theorem generateMap_keeps {o : Nat → Nat → UInt8} {w h : Nat} {m m' : GridMap ℝ} (hg : generateMap o w h m = .ok m') :
    m'.data.length = m.data.length ∧ m'.lower = m.lower ∧ m'.upper = m.upper ∧ m'.noInfo = m.noInfo := by
  unfold generateMap at hg
  revert hg
  generalize cells w h = l
  intro hg
  induction l generalizing m with
  | nil => cases hg; exact ⟨rfl, rfl, rfl, rfl⟩
  | cons p l ih =>
    rw [List.foldlM_cons, CRes.bind_eq_ok] at hg
    obtain ⟨m1, h1, h2⟩ := hg
    have key : m1.data.length = m.data.length ∧ m1.lower = m.lower ∧ m1.upper = m.upper ∧ m1.noInfo = m.noInfo := by
      have aux : ∀ (v : UInt8) (g : GridMap ℝ → Bool → CRes (GridMap ℝ)), (∀ m2 f m3, g m2 f = .ok m3 → m3 = m2) →
          CRes.bind (m.setValue ⟨p.1, p.2⟩ v) (fun m' => CRes.bind (m'.isFree ⟨p.1, p.2⟩) (g m')) = .ok m1 →
          m1.data.length = m.data.length ∧ m1.lower = m.lower ∧ m1.upper = m.upper ∧ m1.noInfo = m.noInfo := by
        intro v g hg hb
        cases hsv : m.setValue ⟨p.1, p.2⟩ v with
        | ok m2 =>
          rw [hsv] at hb
          simp only [CRes.bind] at hb
          cases hf : m2.isFree ⟨p.1, p.2⟩ with
          | ok f =>
            rw [hf] at hb
            simp only at hb
            rw [hg m2 f m1 hb]
            exact setValue_keeps hsv
          | throw t => rw [hf] at hb; simp at hb
          | ub => rw [hf] at hb; simp at hb
        | throw t => rw [hsv] at hb; simp [CRes.bind] at hb
        | ub => rw [hsv] at hb; simp [CRes.bind] at hb
      split_ifs at h1
      · exact aux 255 (fun m' f => if f then .ub else .ok m') (by intro m2 f m3 h; cases f <;> simp_all) h1
      · exact aux 0 (fun m' f => if f then .ok m' else .ub) (by intro m2 f m3 h; cases f <;> simp_all) h1
    obtain ⟨a1, a2, a3, a4⟩ := ih h2
    exact ⟨a1.trans key.1, a2.trans key.2.1, a3.trans key.2.2.1, a4.trans key.2.2.2⟩

/-- Nothing of the state of the user interface has changed. -/
structure SameCtl (e e' : Ed) : Prop where
  mode : e'.mode = e.mode
  drag : e'.drag = e.drag
  ds : e'.ds = e.ds
  sel : e'.sel = e.sel

theorem SameCtl.trans {a b c : Ed} (h : SameCtl a b) (k : SameCtl b c) : SameCtl a c :=
  ⟨k.mode.trans h.mode, k.drag.trans h.drag, k.ds.trans h.ds, k.sel.trans h.sel⟩

theorem generate_spec {e : Ed} (hok : e.Ok) (save : Bool) : ∃ e', e.generate save = .ok e' ∧ e'.s = e.s ∧ e'.Ok ∧ e'.Shows ∧
    SameCtl e e' ∧ e'.disk = (if save then saveMap e.s else e.disk) := by
  obtain ⟨h1, h2, h3, h4, h5, h6, h7⟩ := hok
  obtain ⟨m, g1, g2, g3, -, -, -, g4⟩ := generateMap_spec e.s.img e.map (by rw [h1, h2]; exact h3) (by rw [h1, h2]; exact h4)
    h5 h6 h7
  obtain ⟨k1, k2, k3, k4⟩ := generateMap_keeps g1
  rw [h1, h2] at g1
  refine ⟨{ e with
      map := m
      disk := if save then saveMap e.s else e.disk }, ?_, rfl, ⟨g2.trans h1, g3.trans h2, h3, by simp only; rw [k1]; exact h4,
    k2.trans h5, k3.trans h6, k4.trans h7⟩, ?_, ⟨rfl, rfl, rfl, rfl⟩, rfl⟩
  · unfold Ed.generate
    rw [g1, CRes.ok_bind]
    cases save <;> rfl
  · intro x y hx hy
    have := g4 x y (by rw [h1]; exact hx) (by rw [h2]; exact hy)
    exact ⟨this.1, this.2.1⟩

/-- Changing the image keeps the sizes. -/
theorem Ed.Ok.img {e : Ed} (h : e.Ok) (img : Nat → Nat → UInt8) (a b : ℝ × ℝ × ℝ) :
    Ed.Ok { e with s := { e.s with img := img, start := a, goal := b } } := ⟨h.w, h.h, h.size, h.len, h.lower, h.upper, h.noInfo⟩

/-- The frame of an edit: sizes, start and goal stay. -/
structure SameFrame (e e' : Ed) : Prop where
  w : e'.s.w = e.s.w
  h : e'.s.h = e.s.h
  res : e'.s.res = e.s.res
  start : e'.s.start = e.s.start
  goal : e'.s.goal = e.s.goal

theorem SameFrame.trans {a b c : Ed} (h : SameFrame a b) (k : SameFrame b c) : SameFrame a c :=
  ⟨k.w.trans h.w, k.h.trans h.h, k.res.trans h.res, k.start.trans h.start, k.goal.trans h.goal⟩

/-- The image of `clear`. -/
theorem clear_spec {e : Ed} (hok : e.Ok) (save : Bool) : ∃ e', e.clear save = .ok e' ∧ e'.Ok ∧ e'.Shows ∧
    SameFrame e e' ∧ SameCtl e e' ∧ (∀ y x, y < e.s.h → x < e.s.w → e'.s.img y x = 255) ∧ (save = true → e'.Stored) := by
  unfold Ed.clear
  simp only
  obtain ⟨e', g1, g2, g3, g4, g5, g6⟩ := generate_spec (hok.img (fun y x =>
    (Render.Img.rectFilled ⟨e.s.h, e.s.w, fun r c => e.s.img r.toNat c.toNat⟩ 0 0 (e.s.w * SCALE - 1) (e.s.h * SCALE - 1)
      (255 : UInt8)).px y x) e.s.start e.s.goal) save
  refine ⟨e', g1, g3, g4, ⟨by rw [g2], by rw [g2], by rw [g2], by rw [g2], by rw [g2]⟩,
    ⟨g5.mode, g5.drag, g5.ds, g5.sel⟩, ?_, ?_⟩
  · intro y x hy hx
    rw [g2]
    have hS : SCALE = 8 := rfl
    simp only [Render.Img.rectFilled]
    rw [if_pos]
    rw [hS]
    omega
  · intro hs
    unfold Ed.Stored
    rw [g6, if_pos hs, g2]

/-- The image of `invert`. -/
theorem invert_spec' {e : Ed} (hok : e.Ok) (save : Bool) : ∃ e', e.invert save = .ok e' ∧ e'.Ok ∧ e'.Shows ∧
    SameFrame e e' ∧ SameCtl e e' ∧ (∀ y x, y < e.s.h → x < e.s.w → e'.s.img y x = 255 - e.s.img y x) ∧
    (save = true → e'.Stored) := by
  unfold Ed.invert
  obtain ⟨e', g1, g2, g3, g4, g5, g6⟩ := generate_spec (hok.img
    (fun y x => if y < e.s.h ∧ x < e.s.w then invertImg e.s.img y x else e.s.img y x) e.s.start e.s.goal) save
  refine ⟨e', g1, g3, g4, ⟨by rw [g2], by rw [g2], by rw [g2], by rw [g2], by rw [g2]⟩,
    ⟨g5.mode, g5.drag, g5.ds, g5.sel⟩, ?_, ?_⟩
  · intro y x hy hx
    rw [g2]
    simp only
    rw [if_pos ⟨hy, hx⟩]
    rfl
  · intro hs
    unfold Ed.Stored
    rw [g6, if_pos hs, g2]

/-- `makeMaze` and `makeSpaceFillingCurve`: the generator works on a black image; afterwards everything is saved. -/
theorem make_spec {gen : Gen} {e : Ed} (hok : e.Ok) (width : Int) : ∃ img0 : Nat → Nat → UInt8,
    (∀ y x, y < e.s.h → x < e.s.w → img0 y x = 0) ∧
    (∀ r, gen (max 1 (width.tdiv SCALE)) img0 e.s.start e.s.goal = .ok r → ∃ e', e.make gen width = .ok e' ∧ e'.Ok ∧ e'.Shows ∧
      e'.Stored ∧ e'.s = { e.s with img := r.1, start := r.2.1, goal := r.2.2 } ∧ SameCtl e e') ∧
    (∀ e', e.make gen width = .ok e' → ∃ r, gen (max 1 (width.tdiv SCALE)) img0 e.s.start e.s.goal = .ok r) := by
  obtain ⟨e1, a1, a2, -, a4, a5, a6, -⟩ := clear_spec hok false
  obtain ⟨e2, b1, b2, -, b4, b5, b6, -⟩ := invert_spec' a2 false
  have f := a4.trans b4
  have hmk : e.make gen width = (gen (max 1 (width.tdiv SCALE)) e2.s.img e.s.start e.s.goal) >>= fun r =>
      Ed.generate { e2 with s := { e2.s with img := r.1, start := r.2.1, goal := r.2.2 } } true := by
    unfold Ed.make
    rw [a1, CRes.ok_bind, b1, CRes.ok_bind, f.start, f.goal]
  refine ⟨e2.s.img, ?_, ?_, ?_⟩
  · intro y x hy hx
    rw [b6 y x (by rw [a4.h]; exact hy) (by rw [a4.w]; exact hx), a6 y x hy hx]
    rfl
  · intro r hr
    obtain ⟨e', g1, g2, g3, g4, g5, g6⟩ := generate_spec (b2.img r.1 r.2.1 r.2.2) true
    have c := a5.trans b5
    refine ⟨e', ?_, g3, g4, ?_, ?_, ⟨g5.mode.trans c.mode, g5.drag.trans c.drag, g5.ds.trans c.ds, g5.sel.trans c.sel⟩⟩
    · rw [hmk, hr, CRes.ok_bind]
      exact g1
    · unfold Ed.Stored
      rw [g6, g2]
      rfl
    · rw [g2]
      simp only
      rw [St.mk.injEq]
      exact ⟨f.w, f.h, f.res, rfl, rfl, rfl⟩
  · intro e' he
    rw [hmk, CRes.bind_eq_ok] at he
    obtain ⟨r, hr, -⟩ := he
    exact ⟨r, hr⟩


/-- Consistency is not affected by anything but the map, the sizes and the image. -/
theorem ok_of {e e' : Ed} (k : e.Ok) (hm : e'.map = e.map) (hw : e'.s.w = e.s.w) (hh : e'.s.h = e.s.h) : e'.Ok := by
  obtain ⟨k1, k2, k3, k4, k5, k6, k7⟩ := k
  refine ⟨?_, ?_, ?_, ?_, ?_, ?_, ?_⟩ <;> simp only [hm, hw, hh] <;> assumption

theorem shows_of {e e' : Ed} (k : e.Shows) (hm : e'.map = e.map) (hw : e'.s.w = e.s.w) (hh : e'.s.h = e.s.h)
    (hi : e'.s.img = e.s.img) : e'.Shows := by
  intro x y hx hy
  rw [hm, hi]
  exact k x y (by rw [← hw]; exact hx) (by rw [← hh]; exact hy)

theorem stored_of {e e' : Ed} (k : e.Stored) (hd : e'.disk = e.disk) (hs : e'.s = e.s) : e'.Stored := by
  unfold Ed.Stored at *
  rw [hd, hs]; exact k

/-- Modes in which a release changes the image. -/
def Draws (m : Mode) : Prop := m = .obstacle ∨ m = .maze ∨ m = .curve

/-- What the release does before the common part. -/
structure UpSpec (e e' : Ed) : Prop where
  ok : e'.Ok
  shows : e'.Shows
  w : e'.s.w = e.s.w
  h : e'.s.h = e.s.h
  res : e'.s.res = e.s.res
  mode : e'.mode = e.mode
  drag : e'.drag = e.drag
  ds : e'.ds = e.ds
  stored : Draws e.mode → e'.Stored
  same : ¬ Draws e.mode → e'.s = e.s ∧ e'.disk = e.disk
  poses : e.mode ≠ .maze → e.mode ≠ .curve → e'.s.start = e.s.start ∧ e'.s.goal = e.s.goal

theorem obstacle_spec {maze curve : Gen} {e : Ed} (hok : e.Ok) (hm : e.mode = .obstacle) (x y : Int) :
    ∃ e', e.onUp maze curve x y = .ok e' ∧ UpSpec e e' ∧ e'.s.img = fun r c : Nat =>
      (drawObstacle ℝ ⟨e.s.h, e.s.w, fun r c => e.s.img r.toNat c.toNat⟩ e.s.h (e.drag = .left) e.ds.1 e.ds.2 x y).px r c := by
  obtain ⟨e', g1, g2, g3, g4, g5, g6⟩ := generate_spec (e := { e with
    sel := (-1, -1)
    s := { e.s with img := fun (r c : Nat) => (drawObstacle ℝ ⟨e.s.h, e.s.w, fun r c => e.s.img r.toNat c.toNat⟩ e.s.h
      (e.drag = .left) e.ds.1 e.ds.2 x y).px r c } }) (ok_of hok rfl rfl rfl) true
  refine ⟨{ e' with repaint := true }, ?_, ?_, ?_⟩
  · unfold Ed.onUp
    split <;> rename_i heq
    · simp [hm] at heq
    · simp only
      rw [g1]
      rfl
    all_goals simp_all
  · refine ⟨ok_of g3 rfl rfl rfl, shows_of g4 rfl rfl rfl rfl, ?_, ?_, ?_, g5.mode, g5.drag, g5.ds, ?_, ?_, ?_⟩
    · simp only; rw [g2]
    · simp only; rw [g2]
    · simp only; rw [g2]
    · intro _
      unfold Ed.Stored
      simp only
      rw [g6, g2]
      rfl
    · intro h
      exact absurd (Or.inl hm) h
    · intro _ _
      simp only
      rw [g2]
      exact ⟨rfl, rfl⟩
  · simp only
    rw [g2]

theorem make_up {gen : Gen} {e : Ed} (hok : e.Ok) (hm : e.mode = .maze ∨ e.mode = .curve) {e1 : Ed}
    (h1 : e.make gen e.sel.1 = .ok e1) : UpSpec e { e1 with
      sel := (-1, -1)
      repaint := true } := by
  obtain ⟨img0, h0, ha, hb⟩ := make_spec (gen := gen) hok e.sel.1
  obtain ⟨r, hr⟩ := hb _ h1
  obtain ⟨e', g1, g2, g3, g4, g5, g6⟩ := ha r hr
  rw [h1] at g1
  cases g1
  refine ⟨ok_of g2 rfl rfl rfl, shows_of g3 rfl rfl rfl rfl, ?_, ?_, ?_, g6.mode, g6.drag, g6.ds, ?_, ?_, ?_⟩
  · simp only; rw [g5]
  · simp only; rw [g5]
  · simp only; rw [g5]
  · intro _; exact stored_of g4 rfl rfl
  · intro h; exact absurd (Or.inr hm) h
  · intro h h'
    rcases hm with hm | hm
    · exact absurd hm h
    · exact absurd hm h'

theorem onUp_spec {maze curve : Gen} {e e' : Ed} (hok : e.Ok) (hs : e.Shows) {x y : Int}
    (h : e.onUp maze curve x y = .ok e') : UpSpec e e' := by
  cases hm : e.mode with
  | obstacle =>
    obtain ⟨e1, g1, g2, -⟩ := obstacle_spec (maze := maze) (curve := curve) hok hm x y
    rw [h] at g1
    cases g1
    exact g2
  | maze =>
    unfold Ed.onUp at h
    rw [hm] at h
    simp only at h
    rw [CRes.bind_eq_ok] at h
    obtain ⟨e1, h1, h2⟩ := h
    cases h2
    exact make_up hok (Or.inl hm) h1
  | curve =>
    unfold Ed.onUp at h
    rw [hm] at h
    simp only at h
    rw [CRes.bind_eq_ok] at h
    obtain ⟨e1, h1, h2⟩ := h
    cases h2
    exact make_up hok (Or.inr hm) h1
  | focus =>
    unfold Ed.onUp at h
    rw [hm] at h
    cases h
    exact ⟨ok_of hok rfl rfl rfl, shows_of hs rfl rfl rfl rfl, rfl, rfl, rfl, hm.symm, rfl, rfl, fun hd => by simp [Draws, hm] at hd,
      fun _ => ⟨rfl, rfl⟩, fun _ _ => ⟨rfl, rfl⟩⟩
  | start =>
    unfold Ed.onUp at h
    rw [hm] at h
    cases h
    exact ⟨hok, hs, rfl, rfl, rfl, rfl, rfl, rfl, fun hd => by simp [Draws, hm] at hd, fun _ => ⟨rfl, rfl⟩, fun _ _ => ⟨rfl, rfl⟩⟩
  | goal =>
    unfold Ed.onUp at h
    rw [hm] at h
    cases h
    exact ⟨hok, hs, rfl, rfl, rfl, rfl, rfl, rfl, fun hd => by simp [Draws, hm] at hd, fun _ => ⟨rfl, rfl⟩, fun _ _ => ⟨rfl, rfl⟩⟩

/-- What dragging does. -/
structure DragSpec (e e' : Ed) (up : Bool) : Prop where
  map : e'.map = e.map
  w : e'.s.w = e.s.w
  h : e'.s.h = e.s.h
  res : e'.s.res = e.s.res
  img : e'.s.img = e.s.img
  mode : e'.mode = e.mode
  drag : e'.drag = e.drag
  ds : e'.ds = e.ds
  start : e.mode ≠ .start → e'.s.start = e.s.start
  goal : e.mode ≠ .goal → e'.s.goal = e.s.goal
  stored : (e.mode = .start ∨ e.mode = .goal) → up = true → e'.Stored
  same : ¬ (e.mode = .start ∨ e.mode = .goal) → e'.s = e.s ∧ e'.disk = e.disk

theorem onDrag_spec (e : Ed) (up : Bool) (x y : Int) : DragSpec e (e.onDrag up x y) up := by
  unfold Ed.onDrag
  cases hm : e.mode <;> cases up <;> constructor <;> simp [Ed.save, Ed.Stored, hm]

/-- Effect of one event on a consistent editor. -/
structure StepSpec (e e' : Ed) : Prop where
  ok : e'.Ok
  shows : e'.Shows
  w : e'.s.w = e.s.w
  h : e'.s.h = e.s.h
  res : e'.s.res = e.s.res

theorem UpSpec.drag_end {e e1 : Ed} (hu : UpSpec e e1) (x y : Int) (rf : Bool) :
    StepSpec e { Ed.onDrag { e1 with drag := .none } true x y with refresh := rf } ∧
    (e.mode ≠ .focus → ({ Ed.onDrag { e1 with drag := .none } true x y with refresh := rf } : Ed).Stored) ∧
    (e.Stored → ({ Ed.onDrag { e1 with drag := .none } true x y with refresh := rf } : Ed).Stored) := by
  have d := onDrag_spec { e1 with drag := .none } true x y
  have hst : e.mode ≠ .focus → ({ Ed.onDrag { e1 with drag := .none } true x y with refresh := rf } : Ed).Stored := by
    intro hf
    have hmode : e1.mode = e.mode := hu.mode
    by_cases hsg : e1.mode = .start ∨ e1.mode = .goal
    · exact stored_of (d.stored hsg rfl) rfl rfl
    · have hd : Draws e.mode := by
        unfold Draws
        rw [hmode] at hsg
        cases hm : e.mode <;> simp_all
      obtain ⟨q1, q2⟩ := d.same hsg
      exact stored_of (hu.stored hd) q2 q1
  refine ⟨⟨ok_of hu.ok d.map d.w d.h, shows_of hu.shows d.map d.w d.h d.img, d.w.trans hu.w, d.h.trans hu.h,
    d.res.trans hu.res⟩, hst, ?_⟩
  intro hs
  by_cases hf : e.mode = .focus
  · have hnd : ¬ Draws e.mode := by simp [Draws, hf]
    have hsg : ¬ (e1.mode = .start ∨ e1.mode = .goal) := by rw [hu.mode, hf]; simp
    obtain ⟨p1, p2⟩ := hu.same hnd
    obtain ⟨q1, q2⟩ := d.same hsg
    exact stored_of hs (q2.trans p2) (q1.trans p1)
  · exact hst hf

theorem key_c (e : Ed) : e.key 99 = (e.clear true >>= fun e1 => pure ({ e1 with repaint := true }, .any)) := by
  unfold Ed.key
  rw [if_neg (by decide), if_neg (by decide), if_neg (by decide), if_neg (by decide), if_neg (by decide), if_neg (by decide),
    if_neg (by decide), if_pos rfl]

theorem key_i (e : Ed) : e.key 105 = (e.invert true >>= fun e1 => pure ({ e1 with repaint := true }, .any)) := by
  unfold Ed.key
  rw [if_neg (by decide), if_neg (by decide), if_neg (by decide), if_neg (by decide), if_neg (by decide), if_neg (by decide),
    if_neg (by decide), if_neg (by decide), if_pos rfl]

/-- Keys other than c and i keep the document. -/
theorem key_other (e : Ed) {k : Nat} (h99 : k ≠ 99) (h105 : k ≠ 105) : ∃ r, e.key k = .ok r ∧ r.1.s = e.s ∧ r.1.map = e.map ∧
    r.1.disk = e.disk ∧ r.1.drag = e.drag ∧ r.1.ds = e.ds ∧ r.1.sel = e.sel ∧ (¬ Spec.ModeKey k → r.1.mode = e.mode) := by
  have hmk : ∀ j, j ∈ [115, 103, 102, 109, 110, 111] → k = j → Spec.ModeKey k := fun j hj hk => hk ▸ hj
  unfold Ed.key
  by_cases c1 : k = 45 ∨ k = 43 ∨ k = 122 ∨ k = 104
  · rw [if_pos c1]; exact ⟨_, rfl, rfl, rfl, rfl, rfl, rfl, rfl, fun _ => rfl⟩
  rw [if_neg c1]
  by_cases c2 : k = 115
  · rw [if_pos c2]; exact ⟨_, rfl, rfl, rfl, rfl, rfl, rfl, rfl, fun hn => absurd (hmk 115 (by decide) c2) hn⟩
  rw [if_neg c2]
  by_cases c3 : k = 103
  · rw [if_pos c3]; exact ⟨_, rfl, rfl, rfl, rfl, rfl, rfl, rfl, fun hn => absurd (hmk 103 (by decide) c3) hn⟩
  rw [if_neg c3]
  by_cases c4 : k = 102
  · rw [if_pos c4]; exact ⟨_, rfl, rfl, rfl, rfl, rfl, rfl, rfl, fun hn => absurd (hmk 102 (by decide) c4) hn⟩
  rw [if_neg c4]
  by_cases c5 : k = 109
  · rw [if_pos c5]; exact ⟨_, rfl, rfl, rfl, rfl, rfl, rfl, rfl, fun hn => absurd (hmk 109 (by decide) c5) hn⟩
  rw [if_neg c5]
  by_cases c6 : k = 110
  · rw [if_pos c6]; exact ⟨_, rfl, rfl, rfl, rfl, rfl, rfl, rfl, fun hn => absurd (hmk 110 (by decide) c6) hn⟩
  rw [if_neg c6]
  by_cases c7 : k = 111
  · rw [if_pos c7]; exact ⟨_, rfl, rfl, rfl, rfl, rfl, rfl, rfl, fun hn => absurd (hmk 111 (by decide) c7) hn⟩
  rw [if_neg c7, if_neg h99, if_neg h105]
  by_cases c8 : k = 112
  · rw [if_pos c8]; exact ⟨_, rfl, rfl, rfl, rfl, rfl, rfl, rfl, fun _ => rfl⟩
  rw [if_neg c8]
  by_cases c9 : k = 116
  · rw [if_pos c9]; exact ⟨_, rfl, rfl, rfl, rfl, rfl, rfl, rfl, fun _ => rfl⟩
  rw [if_neg c9]
  by_cases c10 : k = 32
  · rw [if_pos c10]; exact ⟨_, rfl, rfl, rfl, rfl, rfl, rfl, rfl, fun _ => rfl⟩
  rw [if_neg c10]
  by_cases c11 : k = 27
  · rw [if_pos c11]; exact ⟨_, rfl, rfl, rfl, rfl, rfl, rfl, rfl, fun _ => rfl⟩
  rw [if_neg c11]
  exact ⟨_, rfl, rfl, rfl, rfl, rfl, rfl, rfl, fun _ => rfl⟩

/-- What a key does. -/
theorem key_cases {e : Ed} {k : Nat} {r : Ed × KeyEvent} (h : e.key k = .ok r) :
    (k = 99 ∧ ∃ e1, e.clear true = .ok e1 ∧ r.1 = { e1 with repaint := true }) ∨
    (k = 105 ∧ ∃ e1, e.invert true = .ok e1 ∧ r.1 = { e1 with repaint := true }) ∨
    (k ≠ 99 ∧ k ≠ 105 ∧ r.1.s = e.s ∧ r.1.map = e.map ∧ r.1.disk = e.disk ∧ r.1.drag = e.drag ∧ r.1.ds = e.ds ∧ r.1.sel = e.sel ∧
      (¬ Spec.ModeKey k → r.1.mode = e.mode)) := by
  by_cases h99 : k = 99
  · left
    subst h99
    rw [key_c, CRes.bind_eq_ok] at h
    obtain ⟨e1, h1, h2⟩ := h
    cases h2
    exact ⟨rfl, e1, h1, rfl⟩
  by_cases h105 : k = 105
  · right; left
    subst h105
    rw [key_i, CRes.bind_eq_ok] at h
    obtain ⟨e1, h1, h2⟩ := h
    cases h2
    exact ⟨rfl, e1, h1, rfl⟩
  right; right
  obtain ⟨r', g, gs⟩ := key_other e h99 h105
  rw [h] at g
  cases g
  exact ⟨h99, h105, gs⟩

/-- One event keeps the editor consistent; the drag state follows the buttons; the files are up to date again after every release
(except in the focus mode, where nothing changes), and stay so unless a start or goal is being dragged. -/
theorem step_spec {maze curve : Gen} {e e' : Ed} {ev : Event} (hok : e.Ok) (hs : e.Shows) (h : e.step maze curve ev = .ok e') :
    StepSpec e e' ∧ (decide (e'.drag ≠ .none) = Spec.holdAfter (decide (e.drag ≠ .none)) ev) ∧
    ((∀ k, ev = .key k → ¬ Spec.ModeKey k) → e'.mode = e.mode) ∧
    (e.Stored → e'.Stored ∨ (e'.drag ≠ .none ∧ (e'.mode = .start ∨ e'.mode = .goal))) ∧
    ((ev = .key 99 ∨ ev = .key 105 ∨ (∃ x y, ev = .mouse .lup x y ∨ ev = .mouse .rup x y) ∧ e.mode ≠ .focus) → e'.Stored) ∧
    (¬ (e.mode = .start ∨ e.mode = .goal) → e.Stored → e'.Stored) := by
  cases ev with
  | mouse b x y =>
    cases b with
    | ldown =>
      cases h
      exact ⟨⟨ok_of hok rfl rfl rfl, shows_of hs rfl rfl rfl rfl, rfl, rfl, rfl⟩, by simp [Spec.holdAfter], fun _ => rfl,
        fun k => Or.inl (stored_of k rfl rfl), by simp, fun _ k => stored_of k rfl rfl⟩
    | rdown =>
      cases h
      exact ⟨⟨ok_of hok rfl rfl rfl, shows_of hs rfl rfl rfl rfl, rfl, rfl, rfl⟩, by simp [Spec.holdAfter], fun _ => rfl,
        fun k => Or.inl (stored_of k rfl rfl), by simp, fun _ k => stored_of k rfl rfl⟩
    | lup =>
      simp only [Ed.step, Ed.mouse] at h
      rw [CRes.bind_eq_ok] at h
      obtain ⟨e1, h1, h2⟩ := h
      cases h2
      have hu := onUp_spec hok hs h1
      have d := onDrag_spec { e1 with drag := .none } true x y
      obtain ⟨p1, p2, p3⟩ := hu.drag_end x y true
      exact ⟨p1, by simp [Spec.holdAfter, d.drag], fun _ => d.mode.trans hu.mode, fun k => Or.inl (p3 k),
        by intro hh; rcases hh with hh | hh | ⟨_, hh⟩ <;> [cases hh; cases hh; exact p2 hh], fun _ k => p3 k⟩
    | rup =>
      simp only [Ed.step, Ed.mouse] at h
      rw [CRes.bind_eq_ok] at h
      obtain ⟨e1, h1, h2⟩ := h
      cases h2
      have hu := onUp_spec hok hs h1
      have d := onDrag_spec { e1 with drag := .none } true x y
      obtain ⟨p1, p2, p3⟩ := hu.drag_end x y true
      exact ⟨p1, by simp [Spec.holdAfter, d.drag], fun _ => d.mode.trans hu.mode, fun k => Or.inl (p3 k),
        by intro hh; rcases hh with hh | hh | ⟨_, hh⟩ <;> [cases hh; cases hh; exact p2 hh], fun _ k => p3 k⟩
    | move =>
      simp only [Ed.step, Ed.mouse] at h
      by_cases hd : e.drag = .none
      · rw [if_pos hd] at h
        cases h
        exact ⟨⟨hok, hs, rfl, rfl, rfl⟩, rfl, fun _ => rfl, fun k => Or.inl k, by simp, fun _ k => k⟩
      · rw [if_neg hd] at h
        cases h
        have d := onDrag_spec e false x y
        refine ⟨⟨ok_of hok d.map d.w d.h, shows_of hs d.map d.w d.h d.img, d.w, d.h, d.res⟩, by simp [Spec.holdAfter, d.drag],
          fun _ => d.mode, ?_, by simp, ?_⟩
        · intro k
          by_cases hm : e.mode = .start ∨ e.mode = .goal
          · right
            exact ⟨by rw [show _ = _ from d.drag]; exact hd, by rw [show _ = _ from d.mode]; exact hm⟩
          · left
            obtain ⟨q1, q2⟩ := d.same hm
            exact stored_of k q2 q1
        · intro hm k
          obtain ⟨q1, q2⟩ := d.same hm
          exact stored_of k q2 q1
    | other =>
      cases h
      exact ⟨⟨hok, hs, rfl, rfl, rfl⟩, rfl, fun _ => rfl, fun k => Or.inl k, by simp, fun _ k => k⟩
  | key k =>
    simp only [Ed.step] at h
    rw [CRes.bind_eq_ok] at h
    obtain ⟨r, h1, h2⟩ := h
    cases h2
    rcases key_cases h1 with ⟨rfl, e1, g, ge⟩ | ⟨rfl, e1, g, ge⟩ | ⟨n1, n2, q1, q2, q3, q4, q5, q6, q7⟩
    · obtain ⟨e2, g1, g2, g3, g4, g5, g6, g7⟩ := clear_spec hok true
      rw [g] at g1
      cases g1
      rw [ge]
      have hst : ({ e1 with repaint := true } : Ed).Stored := stored_of (g7 rfl) rfl rfl
      exact ⟨⟨ok_of g2 rfl rfl rfl, shows_of g3 rfl rfl rfl rfl, g4.w, g4.h, g4.res⟩, by simp [Spec.holdAfter, g5.drag],
        fun _ => g5.mode, fun _ => Or.inl hst, fun _ => hst, fun _ _ => hst⟩
    · obtain ⟨e2, g1, g2, g3, g4, g5, g6, g7⟩ := invert_spec' hok true
      rw [g] at g1
      cases g1
      rw [ge]
      have hst : ({ e1 with repaint := true } : Ed).Stored := stored_of (g7 rfl) rfl rfl
      exact ⟨⟨ok_of g2 rfl rfl rfl, shows_of g3 rfl rfl rfl rfl, g4.w, g4.h, g4.res⟩, by simp [Spec.holdAfter, g5.drag],
        fun _ => g5.mode, fun _ => Or.inl hst, fun _ => hst, fun _ _ => hst⟩
    · refine ⟨⟨ok_of hok q2 (by rw [q1]) (by rw [q1]), shows_of hs q2 (by rw [q1]) (by rw [q1]) (by rw [q1]), by rw [q1],
        by rw [q1], by rw [q1]⟩, by simp [Spec.holdAfter, q4], fun hk => q7 (hk k rfl), fun hst => Or.inl (stored_of hst q3 q1),
        ?_, fun _ hst => stored_of hst q3 q1⟩
      intro hh
      rcases hh with hh | hh | ⟨⟨x, y, hh⟩, -⟩
      · cases hh; exact absurd rfl n1
      · cases hh; exact absurd rfl n2
      · rcases hh with hh | hh <;> cases hh

/-! ### Histories -/

theorem stored_onDisk {e : Ed} : e.Stored ↔ Spec.OnDisk e := by
  unfold Ed.Stored Spec.OnDisk saveMap
  constructor
  · intro h
    rw [h]
    exact ⟨rfl, _, rfl, rfl, rfl, rfl⟩
  · rintro ⟨h1, y, h2, h3, h4, h5⟩
    cases hd : e.disk with
    | mk p q =>
      rw [hd] at h1 h2
      simp only at h1 h2
      cases y
      simp only at h3 h4 h5
      rw [h1, h2, h3, h4, h5]

/-- A new editor is consistent, and what it shows is what is in the files. -/
theorem new_spec {halfPi : ℝ} {d : Disk ℝ} {w h : Nat} {res : ℝ} {e : Ed} (hsz : w * h < 2 ^ 32)
    (hn : Ed.new halfPi d w h res = .ok e) : e.Ok ∧ e.Shows ∧ e.Stored ∧ e.drag = .none ∧ e.s.w = w ∧ e.s.h = h ∧ e.s.res = res := by
  classical
  unfold Ed.new at hn
  simp only at hn
  rw [CRes.bind_eq_ok] at hn
  obtain ⟨r, hr, hn⟩ := hn
  rw [CRes.bind_eq_ok] at hn
  obtain ⟨m, hm, hn⟩ := hn
  cases hn
  have hc : r.1.w = w ∧ r.1.h = h ∧ r.1.res = res ∧ r.2 = saveMap r.1 := by
    unfold construct at hr
    rw [CRes.bind_eq_ok] at hr
    obtain ⟨o, ho, hr⟩ := hr
    cases o with
    | none =>
      cases hr
      exact ⟨rfl, rfl, rfl, rfl⟩
    | some st =>
      cases hr
      unfold loadMap at ho
      cases hp : d.ppm with
      | none => rw [hp] at ho; cases ho
      | some p =>
        obtain ⟨c1, c2, img⟩ := p
        rw [hp] at ho
        simp only at ho
        by_cases hne : w ≠ c1 ∨ h ≠ c2
        · rw [if_pos hne] at ho; cases ho
        rw [if_neg hne] at ho
        push Not at hne
        cases hy : d.yaml with
        | none => rw [hy] at ho; cases ho
        | some y =>
          rw [hy] at ho
          simp only at ho
          by_cases hne2 : y.res ≠ res
          · rw [if_pos hne2] at ho; cases ho
          rw [if_neg hne2] at ho
          cases ho
          simp only
          refine ⟨hne.1.symm, hne.2.symm, not_not.1 hne2, ?_⟩
          cases d
          simp only at hp hy
          rw [hp, hy]
          rfl
  obtain ⟨c1, c2, c3, c4⟩ := hc
  have hlen : w * h ≤ (GridMap.mk' w h res : GridMap ℝ).data.length := by
    simp only [GridMap.mk', List.length_replicate]
    rw [show wrapU (w * h) = w * h from Nat.mod_eq_of_lt hsz]
  obtain ⟨m', g1, g2, g3, -, -, -, g4⟩ := generateMap_spec r.1.img ({ GridMap.mk' w h res with
    lower := 20
    upper := 50 } : GridMap ℝ) hsz hlen rfl rfl rfl
  rw [c1, c2] at hm
  have hm' := g1.symm.trans hm
  cases hm'
  obtain ⟨k1, k2, k3, k4⟩ := generateMap_keeps g1
  refine ⟨⟨g2.trans c1.symm, g3.trans c2.symm, by simp only; rw [c1, c2]; exact hsz, by simp only; rw [c1, c2, k1]; exact hlen, k2, k3, k4⟩,
    ?_, ?_, rfl, c1, c2, c3⟩
  · intro x y hx hy
    have := g4 x y (by rw [← c1]; exact hx) (by rw [← c2]; exact hy)
    exact ⟨this.1, this.2.1⟩
  · exact c4

/-- A history of events keeps a consistent editor consistent. -/
theorem run_spec {maze curve : Gen} : ∀ (evs : List Event) {e e' : Ed}, e.Ok → e.Shows → e.run maze curve evs = .ok e' →
    StepSpec e e' ∧ decide (e'.drag ≠ .none) = evs.foldl Spec.holdAfter (decide (e.drag ≠ .none)) := by
  intro evs
  induction evs with
  | nil =>
    intro e e' hok hs h
    cases h
    exact ⟨⟨hok, hs, rfl, rfl, rfl⟩, rfl⟩
  | cons ev evs ih =>
    intro e e' hok hs h
    unfold Ed.run at h
    rw [List.foldlM_cons, CRes.bind_eq_ok] at h
    obtain ⟨e1, h1, h2⟩ := h
    obtain ⟨p, q, -⟩ := step_spec hok hs h1
    obtain ⟨p', q'⟩ := ih p.ok p.shows h2
    exact ⟨⟨p'.ok, p'.shows, p'.w.trans p.w, p'.h.trans p.h, p'.res.trans p.res⟩, by rw [q', q]; rfl⟩

/-- **C115 (the map follows the picture).**  Whatever the user does with mouse and keyboard, the grid map the search gets shows the
picture: black cells are occupied and all others free; its size and resolution are those the evaluator was created with. -/
theorem history_consistent {halfPi : ℝ} {d : Disk ℝ} {w h : Nat} {res : ℝ} (hsz : w * h < 2 ^ 32) {maze curve : Gen}
    {e0 e : Ed} (hn : Ed.new halfPi d w h res = .ok e0) (evs : List Event) (hr : e0.run maze curve evs = .ok e) :
    Spec.Shows e ∧ e.s.w = w ∧ e.s.h = h ∧ e.s.res = res ∧ e.map.width = w ∧ e.map.height = h := by
  obtain ⟨n1, n2, -, -, n5, n6, n7⟩ := new_spec hsz hn
  obtain ⟨p, -⟩ := run_spec evs n1 n2 hr
  exact ⟨p.shows, p.w.trans n5, p.h.trans n6, p.res.trans n7, p.ok.w.trans (p.w.trans n5), p.ok.h.trans (p.h.trans n6)⟩

/-- The invariant behind `history_saved`. -/
theorem run_saved {maze curve : Gen} : ∀ (evs : List Event) {e e' : Ed}, e.Ok → e.Shows →
    (e.Stored ∨ (e.drag ≠ .none ∧ (e.mode = .start ∨ e.mode = .goal))) → Spec.Tidy (decide (e.drag ≠ .none)) evs →
    e.run maze curve evs = .ok e' → e'.Stored ∨ (e'.drag ≠ .none ∧ (e'.mode = .start ∨ e'.mode = .goal)) := by
  intro evs
  induction evs with
  | nil =>
    intro e e' _ _ hst _ h
    cases h
    exact hst
  | cons ev evs ih =>
    intro e e' hok hs hst ht h
    unfold Ed.run at h
    rw [List.foldlM_cons, CRes.bind_eq_ok] at h
    obtain ⟨e1, h1, h2⟩ := h
    obtain ⟨p, q, hmode, hstay, hsave, -⟩ := step_spec hok hs h1
    obtain ⟨t1, t2⟩ := ht
    refine ih p.ok p.shows ?_ (by rw [q]; exact t2) h2
    rcases hst with hst | ⟨hd, hm⟩
    · exact hstay hst
    · -- a start or goal is being dragged
      have hk := hmode (t1 (by simpa using hd))
      by_cases hd' : e1.drag = .none
      · left
        apply hsave
        right; right
        refine ⟨?_, by rcases hm with hm | hm <;> rw [hm] <;> simp⟩
        have hh : Spec.holdAfter (decide (e.drag ≠ .none)) ev = false := by rw [← q, hd']; simp
        rw [show decide (e.drag ≠ .none) = true from by simpa using hd] at hh
        cases ev with
        | key k => simp [Spec.holdAfter] at hh
        | mouse b x y =>
          cases b <;> simp [Spec.holdAfter] at hh
          · exact ⟨x, y, Or.inl rfl⟩
          · exact ⟨x, y, Or.inr rfl⟩
      · right
        exact ⟨hd', by rw [hk]; exact hm⟩

/-- **C115 (nothing is lost).**  If no mode key is pressed while a button is held, then whenever no button is held the files contain
the picture, the start and the goal: a new evaluator of the same size and resolution starts with exactly them. -/
theorem history_saved {halfPi : ℝ} {d : Disk ℝ} {w h : Nat} {res : ℝ} (hsz : w * h < 2 ^ 32) {maze curve : Gen}
    {e0 e : Ed} (hn : Ed.new halfPi d w h res = .ok e0) (evs : List Event) (ht : Spec.Tidy false evs)
    (hh : Spec.Held evs = false) (hr : e0.run maze curve evs = .ok e) :
    Spec.OnDisk e ∧ ∃ e1, Ed.new halfPi e.disk w h res = .ok e1 ∧ e1.s = e.s := by
  classical
  obtain ⟨n1, n2, n3, n4, n5, n6, n7⟩ := new_spec hsz hn
  obtain ⟨p, q⟩ := run_spec evs n1 n2 hr
  have hst := run_saved evs n1 n2 (Or.inl n3) (by rw [n4]; simpa using ht) hr
  have hd : e.drag = .none := by
    have h1 : decide (e.drag ≠ .none) = false := by
      rw [q, n4]
      simpa [Spec.Held] using hh
    simpa using h1
  rw [hd] at hst
  have hst : e.Stored := by simpa using hst
  refine ⟨stored_onDisk.1 hst, ?_⟩
  have hw := p.w.trans n5
  have hhh := p.h.trans n6
  have hre := p.res.trans n7
  have hc : construct halfPi e.disk w h res = .ok (e.s, saveMap e.s) := by
    have := construct_restores halfPi e.s
    rw [show e.disk = saveMap e.s from hst]
    rw [hw, hhh, hre] at this
    exact this
  unfold Ed.new
  simp only
  have hlen : w * h ≤ (GridMap.mk' w h res : GridMap ℝ).data.length := by
    simp only [GridMap.mk', List.length_replicate]
    rw [show wrapU (w * h) = w * h from Nat.mod_eq_of_lt hsz]
  obtain ⟨m', g1, -⟩ := generateMap_spec e.s.img ({ GridMap.mk' w h res with
    lower := 20
    upper := 50 } : GridMap ℝ) hsz hlen rfl rfl rfl
  rw [show (construct halfPi e.disk w h res : CRes (St ℝ × Disk ℝ)) = _ from hc, CRes.ok_bind, hw, hhh,
    show generateMap e.s.img w h _ = _ from g1]
  exact ⟨_, rfl, rfl⟩

/-- **C115 (every event is handled).**  Generators that finish never make an event fail: no assertion and no access outside of the map. -/
theorem step_defined {maze curve : Gen} (hm : Spec.Finishes maze) (hc : Spec.Finishes curve) {e : Ed} (hok : e.Ok)
    (ev : Event) : ∃ e', e.step maze curve ev = .ok e' := by
  have hup : ∀ x y, ∃ e', e.onUp maze curve x y = .ok e' := by
    intro x y
    cases hmode : e.mode with
    | obstacle =>
      obtain ⟨e1, g, -⟩ := obstacle_spec (maze := maze) (curve := curve) hok hmode x y
      exact ⟨e1, g⟩
    | maze =>
      obtain ⟨img0, -, ha, -⟩ := make_spec (gen := maze) hok e.sel.1
      obtain ⟨r, hr⟩ := hm (max 1 (e.sel.1.tdiv SCALE)) img0 e.s.start e.s.goal
      obtain ⟨e', g, -⟩ := ha r hr
      unfold Ed.onUp
      rw [hmode]
      simp only
      rw [g]
      exact ⟨_, rfl⟩
    | curve =>
      obtain ⟨img0, -, ha, -⟩ := make_spec (gen := curve) hok e.sel.1
      obtain ⟨r, hr⟩ := hc (max 1 (e.sel.1.tdiv SCALE)) img0 e.s.start e.s.goal
      obtain ⟨e', g, -⟩ := ha r hr
      unfold Ed.onUp
      rw [hmode]
      simp only
      rw [g]
      exact ⟨_, rfl⟩
    | focus => unfold Ed.onUp; rw [hmode]; exact ⟨_, rfl⟩
    | start => unfold Ed.onUp; rw [hmode]; exact ⟨_, rfl⟩
    | goal => unfold Ed.onUp; rw [hmode]; exact ⟨_, rfl⟩
  cases ev with
  | mouse b x y =>
    cases b with
    | ldown => exact ⟨_, rfl⟩
    | rdown => exact ⟨_, rfl⟩
    | lup =>
      obtain ⟨e1, h1⟩ := hup x y
      simp only [Ed.step, Ed.mouse]
      rw [h1]
      exact ⟨_, rfl⟩
    | rup =>
      obtain ⟨e1, h1⟩ := hup x y
      simp only [Ed.step, Ed.mouse]
      rw [h1]
      exact ⟨_, rfl⟩
    | move =>
      simp only [Ed.step, Ed.mouse]
      by_cases hd : e.drag = .none
      · rw [if_pos hd]; exact ⟨_, rfl⟩
      · rw [if_neg hd]; exact ⟨_, rfl⟩
    | other => exact ⟨_, rfl⟩
  | key k =>
    simp only [Ed.step]
    by_cases h99 : k = 99
    · subst h99
      obtain ⟨e1, g, -⟩ := clear_spec hok true
      rw [key_c, g]
      exact ⟨_, rfl⟩
    by_cases h105 : k = 105
    · subst h105
      obtain ⟨e1, g, -⟩ := invert_spec' hok true
      rw [key_i, g]
      exact ⟨_, rfl⟩
    obtain ⟨r, g, -⟩ := key_other e h99 h105
    rw [g]
    exact ⟨_, rfl⟩

/-- **C115 (every history is handled).** -/
theorem history_defined {halfPi : ℝ} {d : Disk ℝ} {w h : Nat} {res : ℝ} (hsz : w * h < 2 ^ 32) {maze curve : Gen}
    (hm : Spec.Finishes maze) (hc : Spec.Finishes curve) {e0 : Ed} (hn : Ed.new halfPi d w h res = .ok e0) (evs : List Event) :
    ∃ e, e0.run maze curve evs = .ok e := by
  obtain ⟨n1, n2, -⟩ := new_spec hsz hn
  clear hn
  induction evs generalizing e0 with
  | nil => exact ⟨e0, rfl⟩
  | cons ev evs ih =>
    obtain ⟨e1, h1⟩ := step_defined hm hc n1 ev
    obtain ⟨p, -⟩ := step_spec n1 n2 h1
    obtain ⟨e, he⟩ := ih p.ok p.shows
    refine ⟨e, ?_⟩
    unfold Ed.run
    rw [List.foldlM_cons, h1, CRes.ok_bind]
    exact he

end

end PathPlanning.Editor
