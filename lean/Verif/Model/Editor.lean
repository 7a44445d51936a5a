import Verif.Model.Evaluator

/-!
# Model of the event handling of the evaluation tool

Source: `/repo/src/evaluation/evaluator.cpp:33-135` (`mouseCallback`), `:204-246` (`invertMap`, `clearMap`, `makeMaze`,
`makeSpaceFillingCurve`), `:480-541` (`keyCallback`), on top of `Model/Evaluator.lean`.

OpenCV calls both handlers from `cv::waitKey`, one at a time.  What the map generators do to the image, the start and the goal
is a parameter (`gen`, arbitrary; `Model/MapGen*.lean` models them).  The circle of the focus is recorded by the two corners of
the drag (`setFocus`, lines 168-173); the effect of the render keys `- + z h` on the renderer and screenshots are not modelled.
-/

namespace PathPlanning.Editor

open Eval

/-- `DRAG` (evaluator.h:135-137). -/
inductive Drag | left | right | none
deriving DecidableEq

/-- `DRAG_MODE` (evaluator.h:138-140). -/
inductive Mode | goal | start | focus | obstacle | maze | curve
deriving DecidableEq

/-- `KEY_EVENT` (evaluator.h:131-133). -/
inductive KeyEvent | skip | exit | any | none
deriving DecidableEq

/-- Mouse events: buttons down and up, moves, anything else. -/
inductive Mouse | ldown | rdown | lup | rup | move | other
deriving DecidableEq

/-- Members of `Evaluator` (evaluator.h:170-216) that the handlers use; `disk` is the contents of the files. -/
structure Ed where
  s : St ℝ
  map : GridMap ℝ
  disk : Disk ℝ
  drag : Drag
  mode : Mode
  ds : Int × Int
  sel : Int × Int
  focus : Option ((Int × Int) × (Int × Int))
  repaint : Bool
  refresh : Bool
  info : Bool

/-- The map generators: image, start and goal before and after. -/
abbrev Gen := Int → (Nat → Nat → UInt8) → (ℝ × ℝ × ℝ) → (ℝ × ℝ × ℝ) →
  CRes ((Nat → Nat → UInt8) × (ℝ × ℝ × ℝ) × (ℝ × ℝ × ℝ))

noncomputable section

/-- `saveMap` (evaluator.cpp:271-289). -/
def Ed.save (e : Ed) : Ed := { e with disk := saveMap e.s }

/-- `generateMap(save)` (evaluator.cpp:248-269). -/
def Ed.generate (e : Ed) (save : Bool) : CRes Ed := do
  let m ← generateMap e.s.img e.s.w e.s.h e.map
  let e := { e with map := m }
  pure (if save then e.save else e)

/-- `clearMap(save)` (evaluator.cpp:217-222): the rectangle has the size of the picture, `SCALE` times the size of the map. -/
def Ed.clear (e : Ed) (save : Bool) : CRes Ed :=
  let o : Render.Img UInt8 := ⟨e.s.h, e.s.w, fun r c => e.s.img r.toNat c.toNat⟩
  let o := o.rectFilled 0 0 (e.s.w * SCALE - 1) (e.s.h * SCALE - 1) 255
  Ed.generate { e with s := { e.s with img := fun y x => o.px y x } } save

/-- `invertMap(save)` (evaluator.cpp:204-215). -/
def Ed.invert (e : Ed) (save : Bool) : CRes Ed :=
  Ed.generate { e with s := { e.s with img := fun y x => if y < e.s.h ∧ x < e.s.w then invertImg e.s.img y x else e.s.img y x } } save

/-- `makeMaze` and `makeSpaceFillingCurve` (evaluator.cpp:225-246): `std::max(1, width / SCALE)`. -/
def Ed.make (gen : Gen) (e : Ed) (width : Int) : CRes Ed := do
  let e ← e.clear false
  let e ← e.invert false
  let r ← gen (max 1 (width.tdiv SCALE)) e.s.img e.s.start e.s.goal
  Ed.generate { e with s := { e.s with img := r.1, start := r.2.1, goal := r.2.2 } } true

/-- `cv::Rect(p, q).width`, `.height`. -/
def rectSize (p q : Int × Int) : Int × Int := (|q.1 - p.1|, |q.2 - p.2|)

/-- The switch when a button is released (evaluator.cpp:50-90). -/
def Ed.onUp (maze curve : Gen) (e : Ed) (x y : Int) : CRes Ed :=
  match e.mode with
  | .focus => .ok { e with focus := some (e.ds, (x, y)), repaint := true }
  | .obstacle => do
    let o : Render.Img UInt8 := ⟨e.s.h, e.s.w, fun r c => e.s.img r.toNat c.toNat⟩
    let o := drawObstacle ℝ o e.s.h (e.drag = .left) e.ds.1 e.ds.2 x y
    let e ← Ed.generate { e with sel := (-1, -1), s := { e.s with img := fun y x => o.px y x } } true
    pure { e with repaint := true }
  | .maze => do
    let e ← e.make maze e.sel.1
    pure { e with sel := (-1, -1), repaint := true }
  | .curve => do
    let e ← e.make curve e.sel.1
    pure { e with sel := (-1, -1), repaint := true }
  | _ => .ok e

/-- The switch while dragging (evaluator.cpp:98-127): the state and `refresh`. -/
def Ed.onDrag (e : Ed) (up : Bool) (x y : Int) : Ed :=
  let cell := clickCell e.s.h e.ds.1 e.ds.2
  let pose : ℝ × ℝ × ℝ := ((cell.1 : ℝ), (cell.2 : ℝ), dragAngle e.ds.1 e.ds.2 x y)
  match e.mode with
  | .focus => { e with focus := some (e.ds, (x, y)) }
  | .start =>
    let e := { e with s := { e.s with start := pose } }
    if up then e.save else e
  | .goal =>
    let e := { e with s := { e.s with goal := pose } }
    if up then e.save else e
  | .obstacle => { e with sel := rectSize e.ds (x, y) }
  | .maze => { e with sel := rectSize e.ds (x, e.ds.2 + 4) }
  | .curve => { e with sel := rectSize e.ds (x, e.ds.2 + 4) }

/-- `mouseCallback` (evaluator.cpp:33-135); every mode has a case of its own, so `refresh` stays true while dragging. -/
def Ed.mouse (maze curve : Gen) (e : Ed) (ev : Mouse) (x y : Int) : CRes Ed :=
  match ev with
  | .ldown => .ok { e with drag := .left, ds := (x, y), refresh := true }
  | .rdown => .ok { e with drag := .right, ds := (x, y), refresh := true }
  | .lup => do
    let e ← e.onUp maze curve x y
    pure { Ed.onDrag { e with drag := .none } true x y with refresh := true }
  | .rup => do
    let e ← e.onUp maze curve x y
    pure { Ed.onDrag { e with drag := .none } true x y with refresh := true }
  | .move => if e.drag = .none then .ok e else .ok { Ed.onDrag e false x y with refresh := true }
  | .other => .ok e

/-- `keyCallback` (evaluator.cpp:480-541) for a key code below 256; 255 means no key. -/
def Ed.key (e : Ed) (k : Nat) : CRes (Ed × KeyEvent) :=
  if k = 45 ∨ k = 43 ∨ k = 122 ∨ k = 104 then .ok ({ e with repaint := true }, .any)      -- - + z h
  else if k = 115 then .ok ({ e with mode := .start, repaint := true }, .any)              -- s
  else if k = 103 then .ok ({ e with mode := .goal, repaint := true }, .any)               -- g
  else if k = 102 then .ok ({ e with mode := .focus, repaint := true }, .any)              -- f
  else if k = 109 then .ok ({ e with mode := .maze, repaint := true }, .any)               -- m
  else if k = 110 then .ok ({ e with mode := .curve, repaint := true }, .any)              -- n
  else if k = 111 then .ok ({ e with mode := .obstacle, repaint := true }, .any)           -- o
  else if k = 99 then do                                                                    -- c
    let e ← e.clear true
    pure ({ e with repaint := true }, .any)
  else if k = 105 then do                                                                   -- i
    let e ← e.invert true
    pure ({ e with repaint := true }, .any)
  else if k = 112 then .ok ({ e with repaint := true }, .any)                              -- p
  else if k = 116 then .ok ({ e with info := !e.info, repaint := true }, .any)             -- t
  else if k = 32 then .ok (e, .skip)                                                        -- space
  else if k = 27 then .ok (e, .exit)                                                        -- escape
  else .ok (e, .none)

/-- An event. -/
inductive Event
  | mouse (ev : Mouse) (x y : Int)
  | key (k : Nat)

/-- One event. -/
def Ed.step (maze curve : Gen) (e : Ed) : Event → CRes Ed
  | .mouse ev x y => e.mouse maze curve ev x y
  | .key k => do
    let r ← e.key k
    pure r.1

/-- A history of events. -/
def Ed.run (maze curve : Gen) (e : Ed) (evs : List Event) : CRes Ed := evs.foldlM (Ed.step maze curve) e

open Classical in
/-- Constructor (evaluator.cpp:137-158): files are read or the default map is made and saved; the thresholds are set and the map is
generated from the image. -/
def Ed.new (halfPi : ℝ) (d : Disk ℝ) (w h : Nat) (res : ℝ) : CRes Ed := do
  let r ← construct halfPi d w h res
  let m := { GridMap.mk' w h res with lower := 20, upper := 50 }
  let m ← generateMap r.1.img r.1.w r.1.h m
  pure ⟨r.1, m, r.2, .none, .focus, (0, 0), (0, 0), Option.none, false, false, true⟩

end

end PathPlanning.Editor
