import Verif.Model.GridMap
import Verif.Model.Renderer
import Mathlib.Analysis.SpecialFunctions.Complex.Arg

/-!
# Model of the evaluation tool: mouse input, map editing, files, video

Source: `/repo/src/evaluation/evaluator.cpp`, `include/cslibs_path_planning/evaluation/evaluator.h`.

Pixel coordinates are `int` (`ℤ`, no overflow).  The image `orig_map` (one byte per cell, row `y` of the image is row `y`
of the map) is its size and a function of row and column.  Files are modelled as lossless storage (`imwrite`, `imread` and
YAML are external).  Windows, keys, threads and drawing are not modelled; `run` and `paintLoop` reach their end without a
`return` although they return `bool` (evaluator.cpp:543-574, 593-647), so what `main` does with the result is undefined.
-/

namespace PathPlanning.Eval

/-- `SCALE` (evaluator.h:110). -/
def SCALE : Int := 8

/-- The cell set by clicking at pixel `(px, py)` in the modes `SET_START` and `SET_GOAL` (evaluator.cpp:104-105,
110-111): integer divisions. -/
def clickCell (h : Int) (px py : Int) : Int × Int := (px.tdiv SCALE, h - py.tdiv SCALE)

/-- `std::atan2(drag_start.y-y, x-drag_start.x)` (evaluator.cpp:106, 112). -/
noncomputable def dragAngle (sx sy x y : Int) : ℝ :=
  Complex.arg ⟨((x - sx : Int) : ℝ), ((sy - y : Int) : ℝ)⟩

section
variable {K : Type} [Field K] [LinearOrder K] [IsStrictOrderedRing K] [FloorRing K]

/-- Corner of the rectangle in mode `SET_OBSTACLE` (evaluator.cpp:62): `cv::Point(px / (double) SCALE, h - py / (double)
SCALE)`, both converted to `int`. -/
def obstacleCorner (K : Type) [Field K] [LinearOrder K] [FloorRing K] (h : Int) (px py : Int) : Int × Int :=
  (truncC ((px : K) / ((SCALE : Int) : K)), truncC ((h : K) - (py : K) / ((SCALE : Int) : K)))

/-- `cv::rectangle` on `orig_map` when the button is released at `(x, y)` after a drag from `(sx, sy)` (evaluator.cpp:
61-63): black (0) with the left button, white (255) with the right one. -/
def drawObstacle (K : Type) [Field K] [LinearOrder K] [FloorRing K] (o : Render.Img UInt8) (h : Int) (left : Bool)
    (sx sy x y : Int) : Render.Img UInt8 :=
  let a := obstacleCorner K h sx sy
  let b := obstacleCorner K h x y
  o.rectFilled a.1 a.2 b.1 b.2 (if left then 0 else 255)

/-- Cells in the order of the loops of `generateMap` and `invertMap` (evaluator.cpp:251-252, 208-209). -/
def cells (w h : Nat) : List (Nat × Nat) :=
  (List.range h).flatMap fun (y : Nat) => (List.range w).map fun (x : Nat) => (x, y)

/-- `generateMap` (evaluator.cpp:248-269) without saving; a failing `assert` is undefined behaviour. -/
def generateMap {K : Type} (o : Nat → Nat → UInt8) (w h : Nat) (m : GridMap K) : CRes (GridMap K) :=
  (cells w h).foldlM (fun (m : GridMap K) (p : Nat × Nat) =>
    if o p.2 p.1 = 0 then
      (m.setValue ⟨p.1, p.2⟩ 255).bind fun m =>
      (m.isFree ⟨p.1, p.2⟩).bind fun f => if f then .ub else .ok m
    else
      (m.setValue ⟨p.1, p.2⟩ 0).bind fun m =>
      (m.isFree ⟨p.1, p.2⟩).bind fun f => if f then .ok m else .ub) m

/-- `invertMap` on the image (evaluator.cpp:204-213). -/
def invertImg (o : Nat → Nat → UInt8) : Nat → Nat → UInt8 := fun y x => 255 - o y x

end

/-! ### Files -/

/-- What `saveMap` writes to the YAML file (evaluator.cpp:276-283). -/
structure Yaml (K : Type) where
  res : K
  start : K × K × K
  goal : K × K × K

/-- The two files of the map; an image is its number of columns and rows and its pixels. -/
structure Disk (K : Type) where
  ppm : Option (Nat × Nat × (Nat → Nat → UInt8))
  yaml : Option (Yaml K)

/-- Members of `Evaluator` that are saved (evaluator.h:181-198): `w`, `h`, `res` are the constructor's arguments. -/
structure St (K : Type) where
  w : Nat
  h : Nat
  res : K
  img : Nat → Nat → UInt8
  start : K × K × K
  goal : K × K × K

section
variable {K : Type}

/-- `saveMap` (evaluator.cpp:271-289). -/
def saveMap (s : St K) : Disk K := ⟨some (s.w, s.h, s.img), some ⟨s.res, s.start, s.goal⟩⟩

/-- `loadMap` (evaluator.cpp:291-338): `ok none` is the return value `false`.  `YAML::LoadFile` throws if the file cannot
be opened. -/
def loadMap [DecidableEq K] (d : Disk K) (w h : Nat) (res : K) : CRes (Option (St K)) :=
  match d.ppm with
  | none => .ok none
  | some (cols, rows, img) =>
    if w ≠ cols ∨ h ≠ rows then .ok none
    else
      match d.yaml with
      | none => .throw "YAML::BadFile"
      | some y => if y.res ≠ res then .ok none else .ok (some ⟨cols, rows, y.res, img, y.start, y.goal⟩)

/-- `initDefaultMap` (evaluator.cpp:175-195): everything free, start (1,1), goal at the upper right cell.  `generateMap()`
is called with its default argument, so the map is saved.  `halfPi` is `M_PI / 2`. -/
def initDefault [One K] [Zero K] [NatCast K] [Sub K] (halfPi : K) (w h : Nat) (res : K) : St K × Disk K :=
  let s : St K := ⟨w, h, res, fun _ _ => 255, (1, 1, halfPi), ((w : K) - 1, (h : K) - 1, 0)⟩
  (s, saveMap s)

/-- Constructor (evaluator.cpp:151-153): state and files afterwards. -/
def construct [DecidableEq K] [One K] [Zero K] [NatCast K] [Sub K] (halfPi : K) (d : Disk K) (w h : Nat) (res : K) :
    CRes (St K × Disk K) := do
  let r ← loadMap d w h res
  match r with
  | some s => pure (s, d)
  | none => pure (initDefault halfPi w h res)

end

/-! ### Video -/

/-- Members used for the video (evaluator.h:209-216); `frames`: numbers of the calls of `draw` whose image was written,
latest last. -/
structure Video where
  image : Int
  firstOrLast : Bool
  skipped : Int
  frames : List Nat

/-- Constructor (evaluator.cpp:142). -/
def Video.new : Video := ⟨1, false, 0, []⟩

/-- End of `draw` with `save_video_frames` set (evaluator.cpp:439-459), in the `k`-th call. -/
def Video.draw (skip : Int) (fps : Nat) (k : Nat) (v : Video) : Video :=
  let v := if v.image = 1 then { v with firstOrLast := true } else v
  let v := { v with image := v.image + 1 }
  if v.firstOrLast then { v with frames := v.frames ++ List.replicate (4 * fps) k, firstOrLast := false }
  else
    let v := { v with skipped := v.skipped - 1 }
    if v.skipped ≤ 0 then { v with frames := v.frames ++ [k], skipped := skip } else v

/-- The calls `draw` number `k`, ..., `k + n - 1`. -/
def Video.draws (skip : Int) (fps : Nat) (k n : Nat) (v : Video) : Video :=
  (List.range' k n).foldl (fun v i => v.draw skip fps i) v

/-- `run` in `render` (evaluator.cpp:562-568): `n` calls during the search, one with the path, then `first_or_last_frame`
is set and `draw` called once more. -/
def Video.run (skip : Int) (fps n : Nat) : Video :=
  let v := Video.draws skip fps 0 (n + 1) Video.new
  Video.draw skip fps (n + 1) { v with firstOrLast := true }

end PathPlanning.Eval
