import Verif.Model.Vec

/-!
# Model of the Reeds-Shepp curve generator

Sources: `/repo/src/ReedsShepp/{CurveGenerator,Curve,CurveSegment,CircleSegment,LineSegment,
GeometryHelper}.cpp` and the headers of the same names.

Simplifications (besides exact numbers for `float`/`double`):
* the debugging trace and the text written to streams are not modelled;
* `MathHelper::AngleClamp` (macro `NORMALIZE`, MapMath.h:16) is external: the parameter `clamp`;
* the settings which `Curve::init_segments` copies into every segment (Curve.cpp:131-142) are kept
  once, in `RSEnv`;
* conversions of coordinates to `int` are truncations; values beyond 32 bits are not modelled;
* `m_weight` of a circle segment (the cell sum, reset at the start of `weight`) is a local value.
-/

noncomputable section

namespace PathPlanning.RS

/-- `#define NOT_FREE 999999` (CurveSegment.h:18). -/
def NOT_FREE : ℝ := 999999

/-- `CurveSegment::DIRECTION` (CurveSegment.h:29-32). -/
inductive Dir where
  | fwd
  | bwd
deriving DecidableEq, Repr

/-- `CircleSegment::ORIENTATION` (CircleSegment.h:29-32). -/
inductive Ori where
  | left
  | right
deriving DecidableEq, Repr

/-- The part of the abstract class `GridMap2d` (include/cslibs_path_planning/common/GridMap2d.h)
used by the curve code: `isInMap(int,int)`, `isFree(x,y)`, `getValue(x,y)`, `getResolution()`. -/
structure MapIf where
  inMap : Int → Int → Bool
  free : Int → Int → Bool
  value : Int → Int → Nat
  res : ℝ

/-- Settings shared by the segments of a curve (CurveSegment.h:121-136, Curve.h:105-114), plus the
external `NORMALIZE`. -/
structure RSEnv where
  clamp : ℝ → ℝ
  map : MapIf
  ignore : Bool
  radius : ℝ
  maxDist : ℝ
  useMapCost : Bool
  minCell : Nat
  costF : ℝ
  costB : ℝ
  costC : ℝ
  costS : ℝ

/-- The local variable `cost` (CircleSegment.cpp:118, LineSegment.cpp:89). -/
def RSEnv.dirCost (E : RSEnv) (d : Dir) : ℝ := if d = .bwd then E.costB else E.costF

/-! ### Circle segments -/

/-- Fields of `CircleSegment` (CircleSegment.h:120-135). Fields without initialiser in the C++ class
(`m_center` is default constructed; `m_radius`, `m_angle_step_size`, `m_steps`) start as `0`. -/
structure Circ where
  ori : Ori
  dir : Dir
  center : P2 := ⟨0, 0⟩
  radius : ℝ := 0
  aStart : ℝ := 0
  aEnd : ℝ := 0
  arc : ℝ := 0
  step : ℝ := 0
  iterating : Bool := false
  output : Int := 0
  steps : Int := 0

namespace Circ

/-- Constructor (CircleSegment.cpp:14-19). -/
def new (o : Ori) (d : Dir) : Circ := { ori := o, dir := d }

/-- The local variable `must_be_positive` (CircleSegment.cpp:272). -/
def mustBePos (c : Circ) : Bool := xor (decide (c.ori = .left)) (decide (c.dir = .bwd))

/-- `compute_arc_length` (CircleSegment.cpp:250-297). -/
def computeArc (E : RSEnv) (c : Circ) : Circ :=
  let a := E.clamp (c.aEnd - c.aStart)
  let isPos := decide (0 ≤ a)
  let arc :=
    if c.mustBePos && !isPos then a + 2 * Real.pi
    else if !c.mustBePos && isPos then a - 2 * Real.pi
    else a
  let sign : ℝ := if 0 ≤ arc then 1 else -1
  let step := E.maxDist / c.radius * sign
  { c with arc := arc, step := step, steps := max 1 |⌊arc / step⌋| }

/-- `set_center` (CircleSegment.cpp:31-34). -/
def setCenter (c : Circ) (p : P2) : Circ := { c with center := p }

/-- `set_radius` (CircleSegment.cpp:46-50). -/
def setRadius (c : Circ) (r : ℝ) : Circ :=
  { c with radius := r, steps := truncC (r * 2 * Real.pi) }

/-- The angle on the circle for a driving orientation (CircleSegment.cpp:54-58, 67-71):
`DTOR(90)` is `90 * π / 180`. -/
def angleFor (o : Ori) (orientation : ℝ) : ℝ :=
  if o = .left then orientation - 90 * Real.pi / 180 else orientation + 90 * Real.pi / 180

/-- `set_start_angle_for_orientation` (CircleSegment.cpp:52-63). -/
def setStartFor (E : RSEnv) (c : Circ) (orientation : ℝ) : Circ :=
  computeArc E { c with aStart := E.clamp (angleFor c.ori orientation) }

/-- `set_end_angle_for_orientation` (CircleSegment.cpp:65-76). -/
def setEndFor (E : RSEnv) (c : Circ) (orientation : ℝ) : Circ :=
  computeArc E { c with aEnd := E.clamp (angleFor c.ori orientation) }

/-- `set_start_angle` (CircleSegment.cpp:78-83). -/
def setStart (E : RSEnv) (c : Circ) (a : ℝ) : Circ :=
  computeArc E { c with aStart := E.clamp a }

/-- `set_end_angle` (CircleSegment.cpp:85-90). -/
def setEnd (E : RSEnv) (c : Circ) (a : ℝ) : Circ :=
  computeArc E { c with aEnd := E.clamp a }

/-- `get_start_point` (CircleSegment.cpp:102-105). -/
def startPoint (c : Circ) : P2 := c.center + P2.fromPolar c.aStart c.radius

/-- `get_end_point` (CircleSegment.cpp:107-110). -/
def endPoint (c : Circ) : P2 := c.center + P2.fromPolar c.aEnd c.radius

/-- The local `on_segment` of `testPixel` (CircleSegment.cpp:202-228). -/
def onSegment (E : RSEnv) (c : Circ) (cx cy x y : Int) : Bool :=
  let angle := atan2 ((y - cy : Int) : ℝ) ((x - cx : Int) : ℝ)
  let s := E.clamp c.aStart
  let e := E.clamp c.aEnd
  let increasing := decide (0 < c.step)
  if e < s then
    if !increasing then decide (angle ≤ s) && decide (e ≤ angle)
    else decide (s ≤ angle) || decide (angle ≤ e)
  else
    if increasing then decide (s ≤ angle) && decide (angle ≤ e)
    else decide (angle ≤ s) || decide (e ≤ angle)

/-- `testPixel` (CircleSegment.cpp:199-248): the result and the updated cell sum `m_weight`. -/
def testPixel (E : RSEnv) (c : Circ) (cx cy x y : Int) (w : ℝ) : Bool × ℝ :=
  if E.map.inMap x y then
    if onSegment E c cx cy x y then
      (if E.ignore then true else E.map.free x y, w + ((max E.minCell (E.map.value x y) : Nat) : ℝ))
    else (true, w)
  else (false, w)

/-- `test4Points` (CircleSegment.cpp:188-197); `&=` does not short-circuit. -/
def test4 (E : RSEnv) (c : Circ) (cx cy x y : Int) (w : ℝ) : Bool × ℝ :=
  let r1 := testPixel E c cx cy (cx + x) (cy + y) w
  let r2 := if x ≠ 0 then testPixel E c cx cy (cx - x) (cy + y) r1.2 else (true, r1.2)
  let r3 := if y ≠ 0 then testPixel E c cx cy (cx + x) (cy - y) r2.2 else (true, r2.2)
  let r4 := if x ≠ 0 ∧ y ≠ 0 then testPixel E c cx cy (cx - x) (cy - y) r3.2 else (true, r3.2)
  (r1.1 && r2.1 && r3.1 && r4.1, r4.2)

/-- `test8Points` (CircleSegment.cpp:176-183). -/
def test8 (E : RSEnv) (c : Circ) (cx cy x y : Int) (w : ℝ) : Bool × ℝ :=
  let r1 := test4 E c cx cy x y w
  if x ≠ y then
    let r2 := test4 E c cx cy y x r1.2
    (r1.1 && r2.1, r2.2)
  else r1

/-- The loop of `checkCircle` (CircleSegment.cpp:155-171). `none` = fuel exhausted. -/
def checkLoop (E : RSEnv) (c : Circ) (cx cy : Int) :
    Nat → Int → Int → Int → Bool → ℝ → Option (Bool × ℝ)
  | 0, _, _, _, _, _ => none
  | fuel + 1, error, x, y, isFree, w =>
    if y ≤ x then
      let r := test8 E c cx cy x y w
      let error := error + y
      let y := y + 1
      let error := error + y
      if 0 ≤ error then
        checkLoop E c cx cy fuel (error - x - (x - 1)) (x - 1) y (isFree && r.1) r.2
      else checkLoop E c cx cy fuel error x y (isFree && r.1) r.2
    else some (isFree, w)

/-- `checkCircle` (CircleSegment.cpp:142-174), starting with cell sum `0`
(CircleSegment.cpp:114). The fuel always suffices (`checkCircle_terminates`). -/
def checkCircle (E : RSEnv) (c : Circ) (cx cy radius : Int) : Option (Bool × ℝ) :=
  checkLoop E c cx cy (radius.toNat + 2) (-radius) radius 0 true 0

/-- `length` (CircleSegment.cpp:128-131). -/
def length (c : Circ) : ℝ := |c.arc| * c.radius

/-- `weight` (CircleSegment.cpp:112-126); the centre and radius are converted to `int` by the
call. -/
def weight (E : RSEnv) (c : Circ) : ℝ :=
  let r := (checkCircle E c (truncC c.center.x) (truncC c.center.y) (truncC c.radius)).getD (false, 0)
  if E.ignore || r.1 then
    if E.useMapCost then E.dirCost c.dir * r.2 * E.costC / E.map.res
    else c.length * E.dirCost c.dir * E.costC
  else NOT_FREE

/-- `reset_iteration` (CircleSegment.cpp:299-305). -/
def reset (E : RSEnv) (c : Circ) : Circ :=
  computeArc E { c with iterating := true, output := 0 }

/-- `has_next` (CircleSegment.cpp:307-312). -/
def hasNext (c : Circ) : Bool := decide (c.output ≤ c.steps)

/-- `next` (CircleSegment.cpp:314-331). -/
def next (c : Circ) : Pose × Circ :=
  let angle := c.aStart + c.step * c.output
  let pt := c.center + (⟨c.radius, 0⟩ : P2).rotate angle
  (⟨pt.x, pt.y,
    angle + (if c.ori = .right then -90 * Real.pi / 180 else 90 * Real.pi / 180)⟩,
   { c with output := c.output + 1 })

end Circ

/-! ### Line segments -/

/-- Fields of `LineSegment` (LineSegment.h:84-92). -/
structure Lin where
  dir : Dir
  start : Pose := ⟨0, 0, 0⟩
  stop : Pose := ⟨0, 0, 0⟩
  theta : ℝ := 0
  iterating : Bool := false
  output : Int := 0
  segments : Int := 0

namespace Lin

/-- Constructor (LineSegment.cpp:20-23). -/
def new (d : Dir) : Lin := { dir := d }

/-- `set_points` (LineSegment.cpp:31-42). -/
def setPoints (l : Lin) (p q : P2) : Lin :=
  let t := (q - p).angle
  { l with theta := t, start := ⟨p.x, p.y, t⟩, stop := ⟨q.x, q.y, t⟩ }

/-- The loop of `weight` (LineSegment.cpp:62-86): result `(is_free, path_cost)`.
`none` = fuel exhausted. -/
def loop (E : RSEnv) (x1 y1 dx dy sx sy : Int) : Nat → Int → Int → Int → ℝ → Option (Bool × ℝ)
  | 0, _, _, _, _ => none
  | fuel + 1, x0, y0, err, cost =>
    if E.map.inMap x0 y0 && (!E.map.free x0 y0 && !E.ignore) then some (false, cost)
    else
      let cost := if E.map.inMap x0 y0 then cost + ((max E.minCell (E.map.value x0 y0) : Nat) : ℝ)
        else cost
      if x0 = x1 ∧ y0 = y1 then some (true, cost)
      else
        let e2 := 2 * err
        let (err, x0) := if e2 > dy then (err + dy, x0 + sx) else (err, x0)
        let (err, y0) := if e2 < dx then (err + dx, y0 + sy) else (err, y0)
        loop E x1 y1 dx dy sx sy fuel x0 y0 err cost

/-- The test of the cells between two cells (LineSegment.cpp:57-86). -/
def check (E : RSEnv) (x0 y0 x1 y1 : Int) : Option (Bool × ℝ) :=
  loop E x1 y1 |x1 - x0| (-|y1 - y0|) (if x0 < x1 then 1 else -1) (if y0 < y1 then 1 else -1)
    ((x1 - x0).natAbs + (y1 - y0).natAbs + 1) x0 y0 (|x1 - x0| + -|y1 - y0|) 0

/-- `weight` (LineSegment.cpp:44-97). The fuel of `check` always suffices
(`lineCheck_terminates`). -/
def weight (E : RSEnv) (l : Lin) : ℝ :=
  let x0 := truncC l.start.x
  let y0 := truncC l.start.y
  let x1 := truncC l.stop.x
  let y1 := truncC l.stop.y
  if !E.map.inMap x0 y0 && !E.ignore then NOT_FREE
  else
    let r := (check E x0 y0 x1 y1).getD (false, 0)
    if E.ignore || r.1 then
      if E.useMapCost then E.dirCost l.dir * r.2 * E.costS / E.map.res
      else (l.start.sub l.stop).distOrigin * E.dirCost l.dir * E.costS
    else NOT_FREE

/-- `reset_iteration` (LineSegment.cpp:99-104). -/
def reset (E : RSEnv) (l : Lin) : Lin :=
  { l with iterating := true, output := 0, segments := truncC (l.start.distTo l.stop / E.maxDist) }

/-- `has_next` (LineSegment.cpp:106-111). -/
def hasNext (l : Lin) : Bool := decide (l.output < l.segments)

/-- `next` (LineSegment.cpp:113-126). -/
def next (l : Lin) : Pose × Lin :=
  let f : ℝ := l.output / l.segments
  let p := l.start.add ((l.stop.sub l.start).smul f)
  (⟨p.x, p.y, if l.dir = .bwd then l.theta + 180 * Real.pi / 180 else l.theta⟩,
   { l with output := l.output + 1 })

end Lin

/-- A `CurveSegment`: a line or a circle (the two subclasses of the library). -/
inductive Seg where
  | line (l : Lin)
  | circ (c : Circ)

namespace Seg

/-- virtual `weight`. -/
def weight (E : RSEnv) : Seg → ℝ
  | line l => l.weight E
  | circ c => c.weight E

/-- virtual `reset_iteration`. -/
def reset (E : RSEnv) : Seg → Seg
  | line l => line (l.reset E)
  | circ c => circ (c.reset E)

/-- virtual `has_next` (the asserts on `m_iterating` hold after `reset_iteration`). -/
def hasNext : Seg → Bool
  | line l => l.hasNext
  | circ c => c.hasNext

/-- virtual `next`. -/
def next : Seg → Pose × Seg
  | line l => ((l.next).1, line (l.next).2)
  | circ c => ((c.next).1, circ (c.next).2)

end Seg

/-! ### GeometryHelper -/

/-- `external_tangent` (GeometryHelper.cpp:37-73). Arguments and results in the order
`circle_from, tangent_out, circle_to`. -/
def externalTangent (E : RSEnv) (a : Circ) (l : Lin) (b : Circ) : Circ × Lin × Circ :=
  let s := a.center
  let g := b.center
  let direction := g - s
  let tangentAngle := direction.angle
  let reverse := decide (l.dir = .bwd)
  let orientation := if reverse then tangentAngle - 180 * Real.pi / 180 else tangentAngle
  let a' := a.setEndFor E orientation
  let b' := b.setStartFor E orientation
  let offset := (direction.ortho.normalize).smul a.radius
  let offset := if xor (decide (a.ori = .right)) reverse then offset.smul (-1) else offset
  (a', l.setPoints (s + offset) (g + offset), b')

/-- `internal_tangent` (GeometryHelper.cpp:75-126). -/
def internalTangent (E : RSEnv) (a : Circ) (l : Lin) (b : Circ) : Circ × Lin × Circ :=
  let s := a.center
  let g := b.center
  let direction := g - s
  let gamma := Real.arccos ((a.radius + b.radius) / direction.length)
  let orientation := direction.angle
  let gamma := if a.ori = .right then gamma else -gamma
  let gamma := if l.dir = .bwd then -gamma else gamma
  let a' := a.setEnd E (orientation + gamma)
  let b' := b.setStart E (orientation + gamma + Real.pi)
  let offset := a'.endPoint - a'.center
  (a', l.setPoints (s + offset) (g - offset), b')

/-- `get_common_tangent` (GeometryHelper.cpp:17-35); `none` is the result `false`. -/
def commonTangent (E : RSEnv) (a : Circ) (l : Lin) (b : Circ) : Option (Circ × Lin × Circ) :=
  if (a.center - b.center).length < a.radius + b.radius then none
  else if a.ori = b.ori then some (externalTangent E a l b)
  else some (internalTangent E a l b)

/-- `calculate_tangential_circle` (GeometryHelper.cpp:159-211), which always returns true. -/
def tangentialCircle (E : RSEnv) (positive : Bool) (a m b : Circ) : Circ × Circ × Circ :=
  let s := a.center
  let g := b.center
  let delta := g - s
  let diameter := 2 * a.radius
  let theta := delta.angle
  let gamma := Real.arccos ((delta.length / 2) / diameter)
  let gamma := if positive then gamma else -gamma
  let C := s + P2.fromPolar (gamma + theta) diameter
  let m := m.setCenter C
  let a := a.setEnd E (C - s).angle
  let b := b.setStart E (C - g).angle
  let m := m.setStart E (a.aEnd + Real.pi)
  let m := m.setEnd E (b.aStart + Real.pi)
  (a, m, b)

/-- `test_tangential_double_circle` (GeometryHelper.cpp:220-281), which always returns true. -/
def tangentialDouble (E : RSEnv) (positive : Bool) (a c2 c3 b : Circ) :
    Circ × Circ × Circ × Circ :=
  let s := a.center
  let g := b.center
  let delta := g - s
  let r := a.radius
  let diameter := 2 * r
  let theta := delta.angle
  let gamma := Real.arccos ((delta.length / 2 - r) / diameter)
  let gamma := if positive then gamma else -gamma
  let v12 := P2.fromPolar (gamma + theta) diameter
  let v23 := P2.fromPolar theta diameter
  let C2 := s + v12
  let C3 := C2 + v23
  let c2 := c2.setCenter C2
  let c3 := c3.setCenter C3
  let c2 := c2.setEnd E v23.angle
  let c3 := c3.setStart E (v23.angle + Real.pi)
  let a := a.setEnd E (C2 - s).angle
  let b := b.setStart E (C3 - g).angle
  let c2 := c2.setStart E (a.aEnd + Real.pi)
  let c3 := c3.setEnd E (b.aStart + Real.pi)
  (a, c2, c3, b)

/-- Sum of the weights of a list of circles (the loops GeometryHelper.cpp:309-311, 315-317). -/
def sumWeights (E : RSEnv) (cs : List Circ) : ℝ := cs.foldl (fun w c => w + c.weight E) 0

/-- `symmetry_helper` (GeometryHelper.cpp:284-331) for a callback that always returns true.
`cb` is the callback's effect on the circles; the result is the returned flag and the circles. -/
def symmetryHelper (E : RSEnv) (first last : Circ) (circles : List Circ) (maxDist : ℝ)
    (cb : Bool → List Circ → List Circ) : Bool × List Circ :=
  if (first.center - last.center).length < 2 then (false, circles)
  else if (first.center - last.center).length > maxDist * first.radius then (false, circles)
  else
    let c1 := cb true circles
    let wp := sumWeights E c1
    let c2 := cb false c1
    let wn := sumWeights E c2
    if wn ≥ NOT_FREE ∧ wp ≥ NOT_FREE then (false, c2)
    else if wp < wn then (true, cb true c2)
    else (true, cb false c2)

/-- `calculate_tangential_circle_vector` (GeometryHelper.cpp:151-156). -/
def tangentialCircleVec (E : RSEnv) (p : Bool) : List Circ → List Circ
  | [a, m, b] => let r := tangentialCircle E p a m b; [r.1, r.2.1, r.2.2]
  | cs => cs

/-- `test_tangential_double_circle_vector` (GeometryHelper.cpp:213-218). -/
def tangentialDoubleVec (E : RSEnv) (p : Bool) : List Circ → List Circ
  | [a, c2, c3, b] => let r := tangentialDouble E p a c2 c3 b; [r.1, r.2.1, r.2.2.1, r.2.2.2]
  | cs => cs

/-! ### Curve -/

/-- Fields of `Curve` (Curve.h:105-131) without the settings kept in `RSEnv`. -/
structure Curve where
  seq : List Seg := []
  weight : ℝ := NOT_FREE
  start : Pose := ⟨0, 0, 0⟩
  goal : Pose := ⟨0, 0, 0⟩
  iterating : Bool := false
  outNo : Nat := 0

/-- `init_circle_pairs` (Curve.cpp:247-253): `center_left` and `center_right`. -/
def circlePair (E : RSEnv) (p : Pose) : P2 × P2 :=
  let dir := P2.fromPolar (p.theta + Real.pi / 2) E.radius
  (⟨p.x + dir.x, p.y + dir.y⟩, ⟨p.x - dir.x, p.y - dir.y⟩)

/-- The centre chosen for an orientation (Curve.cpp:154-162). -/
def pairFor (E : RSEnv) (o : Ori) (p : Pose) : P2 :=
  if o = .left then (circlePair E p).1 else (circlePair E p).2

/-- The per-segment part of `init_segments` (Curve.cpp:126-147). -/
def Seg.setup (E : RSEnv) : Seg → Seg
  | .line l => .line l
  | .circ c => .circ (c.setRadius E.radius)

/-- `init_segments` (Curve.cpp:119-166); the assert that the first and the last segment are circles
is `ub` when it fails. -/
def initSegments (E : RSEnv) (start goal : Pose) (seq : List Seg) : CRes (List Seg) :=
  match seq.map (Seg.setup E) with
  | .circ a :: rest =>
    match rest.getLast? with
    | some (.circ z) =>
      let a := a.setCenter (pairFor E a.ori start)
      let z := z.setCenter (pairFor E z.ori goal)
      let a := a.setStartFor E start.theta
      let z := z.setEndFor E goal.theta
      .ok (.circ a :: (rest.dropLast ++ [.circ z]))
    | _ => .ub
  | _ => .ub

/-- `handle_sequence_CSC` (Curve.cpp:190-206). -/
def handleCSC (E : RSEnv) (a : Circ) (l : Lin) (b : Circ) : List Seg × ℝ :=
  match commonTangent E a l b with
  | none => ([.circ a, .line l, .circ b], NOT_FREE)
  | some (a, l, b) => ([.circ a, .line l, .circ b], a.weight E + l.weight E + b.weight E)

/-- `handle_sequence_C3` (Curve.cpp:208-224) with `get_tangential_circle`
(GeometryHelper.cpp:128-137). -/
def handleC3 (E : RSEnv) (a m b : Circ) : List Seg × ℝ :=
  let r := symmetryHelper E a b [a, m, b] 4 (tangentialCircleVec E)
  (r.2.map .circ, if r.1 then sumWeights E r.2 else NOT_FREE)

/-- `handle_sequence_C4` (Curve.cpp:226-245) with `get_tangential_double_circle`
(GeometryHelper.cpp:139-149). -/
def handleC4 (E : RSEnv) (a c2 c3 b : Circ) : List Seg × ℝ :=
  let r := symmetryHelper E a b [a, c2, c3, b] 6 (tangentialDoubleVec E)
  (r.2.map .circ, if r.1 then sumWeights E r.2 else NOT_FREE)

/-- `handle_sequence` (Curve.cpp:168-188). -/
def handleSequence (E : RSEnv) (seq : List Seg) : CRes (List Seg × ℝ) :=
  match seq with
  | [.circ a, .circ m, .circ b] => .ok (handleC3 E a m b)
  | [.circ a, .line l, .circ b] => .ok (handleCSC E a l b)
  | [_, _, _] => .ub
  | [.circ a, .circ c2, .circ c3, .circ b] => .ok (handleC4 E a c2 c3 b)
  | [_, .circ _, .circ _, _] => .ub
  | seq => .ok (seq, NOT_FREE)

/-- `check_if_admissible` (Curve.cpp:94-117): the curve with `m_weight` set. -/
def Curve.check (E : RSEnv) (c : Curve) : CRes Curve :=
  let c := { c with weight := NOT_FREE }
  if c.seq.length < 3 ∨ c.seq.length > 4 then .ok c
  else if c.start.distTo c.goal < 2 then .ok c
  else do
    let s ← initSegments E c.start c.goal c.seq
    let r ← handleSequence E s
    pure { c with seq := r.1, weight := r.2 }

/-- `is_valid` (Curve.cpp:256-263). -/
def Curve.isValid (c : Curve) : Bool :=
  if c.weight < 1 / 1000 then false else decide (c.weight < NOT_FREE)

/-- `curve_arc` (Curve.cpp:269-280). -/
def Curve.curveArc (c : Curve) : ℝ :=
  c.seq.foldl (fun len s => match s with
    | .circ k => len + |k.arc|
    | .line _ => len) 0

/-- `reset_iteration` (Curve.cpp:282-292). -/
def Curve.reset (E : RSEnv) (c : Curve) : Curve :=
  { c with seq := c.seq.map (Seg.reset E), outNo := if c.seq = [] then c.outNo else 0,
           iterating := true }

/-- `has_next` (Curve.cpp:294-308); returns the possibly changed `m_iterating` too. -/
def Curve.hasNext (c : Curve) : Bool × Curve :=
  match c.seq[c.outNo]? with
  | some s => (s.hasNext || decide (c.outNo < c.seq.length - 1), c)
  | none => (false, { c with iterating := false })

/-- `next` (Curve.cpp:310-333); the recursion is on the next segment. `m_sequence[...]` out of range
is `ub`. The fuel is the number of segments left. -/
def Curve.nextAux (E : RSEnv) : Nat → Curve → CRes (Pose × Curve)
  | fuel, c =>
    match c.seq[c.outNo]? with
    | none => .ub
    | some s =>
      if s.hasNext then
        .ok (s.next.1, { c with seq := c.seq.set c.outNo s.next.2 })
      else if c.hasNext.1 then
        match fuel with
        | 0 => .ub
        | fuel + 1 =>
          match c.seq[c.outNo + 1]? with
          | none => .ub
          | some t => nextAux E fuel { c with outNo := c.outNo + 1,
                                              seq := c.seq.set (c.outNo + 1) (t.reset E) }
      else .ok (⟨0, 0, 0⟩, c)

/-- `next` (Curve.cpp:310-333). -/
def Curve.next (E : RSEnv) (c : Curve) : CRes (Pose × Curve) := c.nextAux E c.seq.length

/-- The way a caller reads a curve (ReedsSheppExpansion.hpp:103-108):
`while(curve->has_next()) { ... curve->next(); ... }`. `none` = more than `fuel` poses. -/
def Curve.collect (E : RSEnv) : Nat → Curve → CRes (Option (List Pose))
  | 0, c => if c.hasNext.1 then .ok none else .ok (some [])
  | fuel + 1, c =>
    if c.hasNext.1 then do
      let r ← c.hasNext.2.next E
      let rest ← Curve.collect E fuel r.2
      pure (rest.map (r.1 :: ·))
    else .ok (some [])

/-! ### CurveGenerator -/

/-- State of the loop of `parse` (CurveGenerator.cpp:78-86). -/
structure PState where
  dir : Dir := .fwd
  sub : Bool := false
  segs : List Seg := []

/-- Outcome of one character. -/
inductive PStep where
  | go (s : PState)
  | error
  | ub

/-- The body of the loop of `parse` (CurveGenerator.cpp:88-151). `get_segment(-1)` for an empty
curve is a failed assert: `ub`. -/
def parseChar (s : PState) (ch : Char) : PStep :=
  if s.sub then
    if ch = '(' then .error
    else if ch = 'b' then
      match s.segs.getLast? with
      | none => .ub
      | some (.circ _) => .go s
      | some (.line _) => .error
    else if ch = 'p' then .go s
    else if ch = ')' then .go { s with sub := false }
    else .error
  else
    if ch = '(' then .go { s with sub := true }
    else if ch = ')' then .error
    else if ch = 'S' then .go { s with segs := s.segs ++ [.line (Lin.new s.dir)] }
    else if ch = 'R' then .go { s with segs := s.segs ++ [.circ (Circ.new .right s.dir)] }
    else if ch = 'L' then .go { s with segs := s.segs ++ [.circ (Circ.new .left s.dir)] }
    else if ch = '|' then .go { s with dir := if s.dir = .fwd then .bwd else .fwd }
    else .error

/-- The loop of `parse` (CurveGenerator.cpp:86-155). -/
def parseLoop : PState → List Char → PStep
  | s, [] => .go s
  | s, ch :: rest =>
    match parseChar s ch with
    | .go s' => parseLoop s' rest
    | .error => .error
    | .ub => .ub

/-- Fields of `CurveGenerator` (CurveGenerator.h:77-89). `m_max_curve_arc` is not initialised by the
constructor: `none`. -/
structure Gen where
  curves : List Curve := []
  useMapCost : Bool := false
  minCell : Nat := 10
  radius : ℝ := 2
  maxWp : ℝ := 1
  costF : ℝ := 1
  costB : ℝ := 1
  costC : ℝ := 1
  costS : ℝ := 1
  maxArc : Option ℝ := none

/-- `parse` (CurveGenerator.cpp:76-178): the returned flag (`error`) and the generator. -/
def Gen.parse (g : Gen) (sequence : List Char) : CRes (Bool × Gen) :=
  match parseLoop {} sequence with
  | .ub => .ub
  | .error => .ok (true, g)
  | .go s => if s.sub then .ok (true, g)
    else .ok (false, { g with curves := g.curves ++ [{ seq := s.segs }] })

/-- The settings `find_path` copies into each curve (CurveGenerator.cpp:188-203). -/
def Gen.env (g : Gen) (clamp : ℝ → ℝ) (map : MapIf) (ignore : Bool) : RSEnv where
  clamp := clamp
  map := map
  ignore := ignore
  radius := g.radius / map.res
  maxDist := g.maxWp / map.res
  useMapCost := g.useMapCost
  minCell := g.minCell
  costF := g.costF
  costB := g.costB
  costC := g.costC
  costS := g.costS

/-- The loop of `find_path` (CurveGenerator.cpp:187-215): the updated curves and the best one.
`m_max_curve_arc` is read only for a curve that improves the weight; reading it uninitialised is
`ub`. -/
def findLoop (E : RSEnv) (maxArc : Option ℝ) (start goal : Pose) :
    List Curve → List Curve → Option Curve → ℝ → CRes (List Curve × Option Curve)
  | [], acc, best, _ => .ok (acc, best)
  | c :: cs, acc, best, bw => do
    let c ← Curve.check E { c with start := start, goal := goal }
    if c.weight < bw then
      match maxArc with
      | none => .ub
      | some m =>
        if c.curveArc < m then findLoop E maxArc start goal cs (acc ++ [c]) (some c) c.weight
        else findLoop E maxArc start goal cs (acc ++ [c]) best bw
    else findLoop E maxArc start goal cs (acc ++ [c]) best bw

/-- `find_path` (CurveGenerator.cpp:180-222); an empty generator fails the assert (`ub`). The
returned curve is a copy of the best entry. -/
def Gen.findPath (g : Gen) (clamp : ℝ → ℝ) (start goal : Pose) (map : MapIf) (ignore : Bool) :
    CRes (Gen × Option Curve) :=
  match g.curves with
  | [] => .ub
  | cs => do
    let r ← findLoop (g.env clamp map ignore) g.maxArc start goal cs [] none NOT_FREE
    pure ({ g with curves := r.1 }, r.2)

end PathPlanning.RS
