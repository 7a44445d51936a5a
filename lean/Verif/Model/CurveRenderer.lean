import Verif.Model.Renderer
import Verif.Model.ReedsShepp
import Verif.Model.GridMap

/-!
# Model of `CurveRenderer`

Sources: `/repo/include/cslibs_path_planning/ReedsShepp/CurveRenderer.h`, `/repo/src/ReedsShepp/CurveRenderer.cpp`.

The calls of OpenCV's drawing functions are recorded with their integer arguments (`Cmd`); what OpenCV paints for them
(anti-aliasing, fonts) is not modelled.  `double` and `float` are exact numbers; conversions to `int` truncate, the
values are assumed to fit into an `int`.  `snapshot_in_new_window` and the text of `display_overlay` are not modelled.
-/

namespace PathPlanning.CurveRender

open RS Render

noncomputable section

/-- `p2cv` (CurveRenderer.h:23-26): column and row of the pixel for a point. -/
def p2cv (p : P2) (imgHeight : Int) : Int × Int := (truncC p.x, truncC ((imgHeight : ℝ) - p.y))

/-- The colour of a cell (CurveRenderer.cpp:40-46), blue, green, red; `255-v` is an `unsigned` narrowed to `uchar`. -/
def cellColour (m : GridMap ℝ) (x y : Nat) : CRes (Nat × Nat × Nat) := do
  if ← m.isFree ⟨x, y⟩ then pure (255, 255, 255)
  else do
    let v ← m.getValue ⟨x, y⟩
    pure (255 - v.toNat, 0, 0)

/-- `draw_map` (CurveRenderer.cpp:36-51). -/
def drawMap (m : GridMap ℝ) (o : Img (Nat × Nat × Nat)) : CRes (Img (Nat × Nat × Nat)) :=
  (cells m.width m.height).foldlM (fun o p => do
    let col ← cellColour m p.1 p.2
    o.set (o.rows - 1 - p.2) p.1 col) o

/-- The colours used for a curve: background geometry (80,30,30), trajectory (100,100,100), arrows of way points
(200,200,200), of the goal (50,50,200) and of the start (50,200,50). -/
inductive Pen | ground | trajectory | way | goal | start
deriving DecidableEq

/-- A call of `cv::circle` / `cv::putText` / `cv::line`. -/
inductive Cmd where
  | circle (pen : Pen) (c : Int × Int) (radius : Int)
  | label (p : Int × Int)
  | line (pen : Pen) (p q : Int × Int) (thickness : Int)
deriving DecidableEq

/-- The geometry of one segment (CurveRenderer.cpp:69-89). -/
def segCmds (hs : Int) : Seg → List Cmd
  | .circ c => [.circle .ground (p2cv c.center hs) (truncC c.radius), .label (truncC c.center.x, truncC ((hs : ℝ) - c.center.y))]
  | .line l => [.line .ground (p2cv l.start.pt hs) (p2cv l.stop.pt hs) 4]

/-- The lines of the trajectory (CurveRenderer.cpp:95-100), `last` being the pose before. -/
def polyline (hs : Int) : Pose → List Pose → List Cmd
  | _, [] => []
  | last, n :: ps => .line .trajectory (p2cv last.pt hs) (p2cv n.pt hs) 1 :: polyline hs n ps

/-- `draw_arrow` (CurveRenderer.cpp:114-134). -/
def arrow (hs : Int) (pen : Pen) (pose : Pose) (scale : ℝ) : List Cmd :=
  let t := pose.pt
  let right : P2 := P2.smul ⟨12, 5⟩ scale
  let left : P2 := P2.smul ⟨12, -5⟩ scale
  let dir : P2 := P2.smul ⟨18, 0⟩ scale
  let tip := t + dir.rotate pose.theta
  [.line pen (p2cv pose.pt hs) (p2cv (t + dir.rotate pose.theta) hs) (truncC (2 * scale)),
   .line pen (p2cv tip hs) (p2cv (t + left.rotate pose.theta) hs) (truncC (2 * scale)),
   .line pen (p2cv tip hs) (p2cv (t + right.rotate pose.theta) hs) (truncC (2 * scale))]

/-- `while(curve->has_next()) { n = curve->next(); ... }` (CurveRenderer.cpp:95-100, 103-106): the poses and the curve
afterwards.  `none` = more than `fuel` poses. -/
def drain (E : RSEnv) : Nat → Curve → CRes (Option (List Pose × Curve))
  | 0, c => if c.hasNext.1 then .ok none else .ok (some ([], c.hasNext.2))
  | fuel + 1, c =>
    if c.hasNext.1 then do
      let r ← c.hasNext.2.next E
      let rest ← drain E fuel r.2
      pure (rest.map fun q => (r.1 :: q.1, q.2))
    else .ok (some ([], c.hasNext.2))

/-- `draw` (CurveRenderer.cpp:53-112) into an image that is `empty` or not, for a curve whose map has height `hs`. -/
def draw (E : RSEnv) (empty : Bool) (hs : Int) (fuel : Nat) (c : Curve) : CRes (Option (List Cmd × Curve)) :=
  if empty then .ok (some ([], c))
  else if c.isValid then do
    let ground := c.seq.flatMap (segCmds hs)
    match ← drain E fuel (c.reset E) with
    | none => pure none
    | some (ps, c1) =>
      match ← drain E fuel (c1.reset E) with
      | none => pure none
      | some (qs, c2) =>
        pure (some (ground ++ polyline hs c.start ps ++ qs.flatMap (fun n => arrow hs .way n (4 / 10)) ++
          arrow hs .goal c2.goal 1 ++ arrow hs .start c2.start 1, c2))
  else .ok (some ([], c))

end

end PathPlanning.CurveRender
