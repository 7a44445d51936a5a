import Verif.Model.Vec

/-!
# Model of `path_geom`: `Line`, `Circle`, `Intersector`, `Tangentor`

`Eigen::Vector2d` is `P2`, `double` is `ℝ`; angles are exact, so the `while` loops that reduce an angle
terminate (with `double` they would not for angles beyond about `10^16`).
-/

noncomputable section

namespace PathPlanning.Shapes

open Real (pi)

/-- `DIST_EPS` (include/cslibs_path_planning/geometry/shape.h:32). -/
def distEps : ℝ := 1 / 100000

/-- `Eigen` `normalized()`: the zero vector stays zero (Eigen ≥ 3.3). -/
def unit (v : P2) : P2 := ⟨v.x / v.length, v.y / v.length⟩

/-- `PathPose` (shape.h:68-107). -/
structure PPose where
  pos : P2 := ⟨0, 0⟩
  theta : ℝ := 0
  weight : ℝ := 0

/-- `std::vector::resize(n)` for an `int` argument: a negative value becomes a huge `size_t`, which is
rejected with `std::length_error`. -/
def resizeV {α : Type} (v : List α) (n : Int) (dflt : α) : CRes (List α) :=
  if n < 0 then .throw "std::length_error"
  else .ok (v.take n.toNat ++ List.replicate (n.toNat - v.length) dflt)

/-- `direction/abs(direction)` for `int`: division by zero is undefined. -/
def dirNorm (d : Int) : CRes Int := if d = 0 then .ub else .ok (d.tdiv |d|)

/-! ### Line -/

/-- `Line` (include/cslibs_path_planning/geometry/line.h:21-61). -/
@[ext] structure Ln where
  s : P2
  e : P2

namespace Ln

/-- `Line(PathPose, length, direction)` (src/geometry/line.cpp:26-38). -/
def ofPose (p : PPose) (length : ℝ) (direction : Int) : CRes Ln := do
  let d ← dirNorm direction
  if d = 1 then
    pure ⟨p.pos, p.pos + (⟨Real.cos p.theta, Real.sin p.theta⟩ : P2).smul |length|⟩
  else
    pure ⟨p.pos - (⟨Real.cos p.theta, Real.sin p.theta⟩ : P2).smul |length|, p.pos⟩

/-- `parallel` (line.cpp:41-48). -/
def parallel (l : Ln) (dist : ℝ) : Ln :=
  let ds := unit (l.e - l.s)
  let ortho : P2 := ⟨-dist * ds.y, dist * ds.x⟩
  ⟨l.s + ortho, l.e + ortho⟩

/-- The loop of `toPoses` (line.cpp:79-83). -/
def fill (theta : ℝ) (step : P2) : Nat → Nat → P2 → List PPose → List PPose
  | 0, _, _, v => v
  | n + 1, i, p, v =>
    fill theta step n (i + 1) (p + step) (v.modify i (fun q => { q with pos := p, theta := theta }))

/-- `toPoses` (line.cpp:51-92): the new content of the vector `poses`. -/
def toPoses (l : Ln) (resolution : ℝ) (poses : List PPose) (moveDir : Int) (withStart : Bool) :
    CRes (List PPose) :=
  if |resolution| < 1 / 10000000000 then .ok []
  else do
    let ds := l.e - l.s
    let len := ds.length
    let n ← castI (len / resolution)
    let step := (unit ds).smul resolution
    let (p, step) := if moveDir = -1 then (l.e, step.smul (-1)) else (l.s, step)
    let theta := atan2 ds.y ds.x
    let (v, p) ← (if withStart then (fun v => (v, p)) <$> resizeV poses (n + 1) {}
      else (fun v => (v, p + step)) <$> resizeV poses n {})
    pure (fill theta step n.toNat 0 p v)

/-- The loop of `toPoints` (line.cpp:103-106). -/
def fillPts (step : P2) : Nat → Nat → P2 → List P2 → List P2
  | 0, _, _, v => v
  | n + 1, i, p, v => fillPts step n (i + 1) (p + step) (v.set i p)

/-- `toPoints` (line.cpp:95-110); `resolution = 0` makes `l/resolution` infinite or NaN, whose
conversion to `int` is undefined; `points[n]` for negative `n` is undefined. -/
def toPoints (l : Ln) (resolution : ℝ) (points : List P2) : CRes (List P2) :=
  if resolution = 0 then .ub
  else do
    let ds := l.e - l.s
    let len := ds.length
    let step := (unit ds).smul resolution
    let n ← castI (len / resolution)
    let v ← resizeV points (n + 1) ⟨0, 0⟩
    if n < 0 then .ub
    else vset (fillPts step n.toNat 0 l.s v) n.toNat l.e

/-- `pointRelativePosition` (line.cpp:113-126). -/
def relPos (l : Ln) (c : P2) (tol : ℝ := distEps) : Int :=
  let ab := l.e - l.s
  let ac := c - l.s
  let d := ab.x * ac.y - ab.y * ac.x
  if d > |tol| then 1 else if d < -|tol| then -1 else 0

/-- `pointSignedDistance` (line.cpp:129-135); NaN for a degenerate line, not modelled. -/
def signedDist (l : Ln) (c : P2) : ℝ :=
  let ab := l.e - l.s
  let ac := c - l.s
  (ab.x * ac.y - ab.y * ac.x) / ab.length

/-- `footPoint` (line.cpp:138-144). -/
def foot (l : Ln) (p : P2) : P2 :=
  let dist := l.signedDist p
  let ds := unit (l.e - l.s)
  p - ⟨-dist * ds.y, dist * ds.x⟩

/-- `selectStartPoint` (line.cpp:147-157). -/
def selectStart (l : Ln) (p : P2) (tol : ℝ := distEps) : Bool × Ln :=
  if l.relPos p tol = 0 then (true, { l with s := p }) else (false, l)

/-- `selectEndPoint` (line.cpp:160-170). -/
def selectEnd (l : Ln) (p : P2) (tol : ℝ := distEps) : Bool × Ln :=
  if l.relPos p tol = 0 then (true, { l with e := p }) else (false, l)

/-- `isPointOnSegment` (line.cpp:183-193). -/
def onSegment (l : Ln) (p : P2) (tol : ℝ := distEps) : Bool :=
  let d1 := (p - l.s).length
  let d2 := (p - l.e).length
  let dl := (l.e - l.s).length
  decide (|d1 + d2 - dl| < tol)

/-- `distanceTo` (line.cpp:195-204). -/
def distanceTo (l : Ln) (p : P2) : ℝ :=
  let f := l.foot p
  if l.onSegment f then (f - p).length else min (p - l.s).length (p - l.e).length

/-- `nearestPointTo` (line.cpp:206-220). -/
def nearest (l : Ln) (p : P2) : P2 :=
  let f := l.foot p
  if l.onSegment f then f
  else if (p - l.s).length < (p - l.e).length then l.s else l.e

/-- `projectPoint` (line.cpp:222-227); `s.dot(s) = 0` yields NaN, not modelled. -/
def project (l : Ln) (p : P2) : P2 :=
  let v := p - l.s
  let s := l.e - l.s
  l.s + s.smul ((v.x * s.x + v.y * s.y) / (s.x * s.x + s.y * s.y))

end Ln

/-! ### Angle reduction -/

/-- `while (a > 2*M_PI) a -= 2.0*M_PI;` with a bound on the number of rounds. -/
def loopDown : Nat → ℝ → Option ℝ
  | 0, a => if a > 2 * pi then none else some a
  | n + 1, a => if a > 2 * pi then loopDown n (a - 2 * pi) else some a

/-- `while (a < 0.0) a += 2.0*M_PI;` with a bound on the number of rounds. -/
def loopUp : Nat → ℝ → Option ℝ
  | 0, a => if a < 0 then none else some a
  | n + 1, a => if a < 0 then loopUp n (a + 2 * pi) else some a

/-- The two loops that reduce an angle (src/geometry/circle.cpp:76-79, 93-96, 111-114, 131-134,
156-159). -/
def wrapLoop (fuel : Nat) (a : ℝ) : Option ℝ := (loopDown fuel a).bind (loopUp fuel)

/-- The result of the two loops (`wrap_loop`: the bound on the rounds is never reached). -/
def wrap (a : ℝ) : ℝ := (wrapLoop (⌈|a| / (2 * pi)⌉₊ + 1) a).getD a

/-! ### Circle -/

/-- `Circle` (include/cslibs_path_planning/geometry/circle.h:30-145). -/
@[ext] structure Arc where
  center : P2
  radius : ℝ
  dir : Int
  arc : ℝ
  start : ℝ

namespace Arc

/-- Constructor (src/geometry/circle.cpp:23-32). -/
def new (center : P2) (radius : ℝ) (direction : Int) : CRes Arc := do
  let d ← dirNorm direction
  pure { center := center, radius := |radius|, dir := d, arc := 2 * pi,
         start := if d = -1 then 2 * pi else 0 }

/-- `setStartAngle(double)` (circle.cpp:73-99). -/
def setStart (c : Arc) (angle : ℝ) : Arc :=
  let angle := wrap angle
  let endA := if c.dir = 1 then c.start + c.arc else c.start - c.arc
  let arc := if c.dir = 1 then endA - angle else angle - endA
  { c with start := angle, arc := wrap arc }

/-- `setEndAngle(double)` (circle.cpp:103-116). -/
def setEnd (c : Arc) (angle : ℝ) : Arc :=
  let arc := if c.dir = 1 then angle - c.start else c.start - angle
  { c with arc := wrap arc }

/-- `setArc` (circle.cpp:118-127). -/
def setArc (c : Arc) (start arc : ℝ) (dir : Int) : Arc :=
  { c.setStart start with arc := arc, dir := if dir ≥ 0 then 1 else -1 }

/-- `setArcAngle` (circle.cpp:129-137). -/
def setArcAngle (c : Arc) (a : ℝ) : Arc := { c with arc := wrap a }

/-- `createArcFrom` (circle.cpp:35-50). -/
def createFrom (p : PPose) (radius arc : ℝ) (dir : Int) : CRes Arc := do
  let sa := if dir = 1 then p.theta - pi / 2 else p.theta + pi / 2
  let cs : P2 := ⟨radius * Real.cos sa, radius * Real.sin sa⟩
  let c ← Arc.new (p.pos - cs) radius dir
  pure (c.setArc sa arc dir)

/-- `createArcTo` (circle.cpp:53-70). -/
def createTo (p : PPose) (radius arc : ℝ) (dir : Int) : CRes Arc := do
  let ea := if dir = 1 then p.theta - pi / 2 else p.theta + pi / 2
  let sa := if dir = 1 then ea - arc else ea + arc
  let cs : P2 := ⟨radius * Real.cos ea, radius * Real.sin ea⟩
  let c ← Arc.new (p.pos - cs) radius dir
  pure (c.setArc sa arc dir)

/-- `getArcAngle` (circle.cpp:164-178). -/
def getArc (c : Arc) : ℝ := c.arc

/-- `getArcLength` (circle.cpp:140-143). -/
def arcLength (c : Arc) : ℝ := c.getArc * c.radius

/-- `endAngle` (circle.cpp:148-161). -/
def endAngle (c : Arc) : ℝ := wrap (if c.dir = 1 then c.start + c.arc else c.start - c.arc)

/-- `startPoint` (circle.cpp:199-202). -/
def startPoint (c : Arc) : P2 :=
  c.center + (⟨Real.cos c.start, Real.sin c.start⟩ : P2).smul c.radius

/-- `endPoint` (circle.cpp:205-209). -/
def endPoint (c : Arc) : P2 :=
  let a := c.endAngle
  c.center + (⟨Real.cos a, Real.sin a⟩ : P2).smul c.radius

/-- The loop of `toPoints` (circle.cpp:189-194). -/
def fillPts (radius dphi : ℝ) : Nat → Nat → ℝ → List P2 → List P2
  | 0, _, _, v => v
  | n + 1, i, phi, v =>
    fillPts radius dphi n (i + 1) (phi + dphi)
      (v.set i ⟨radius * Real.cos phi, radius * Real.sin phi⟩)

/-- `toPoints` (circle.cpp:181-195); for `steps = 0` the value `dphi` (a division by zero) is not
used. -/
def toPoints (c : Arc) (resolution : ℝ) (points : List P2) : CRes (List P2) :=
  if resolution = 0 then .ub
  else do
    let steps ← castI |c.arcLength / resolution|
    let dphi := c.getArc / steps
    let v ← resizeV points steps ⟨0, 0⟩
    pure (fillPts c.radius dphi steps.toNat 0 c.start v)

/-- One pose of `toPoses` (circle.cpp:244-245, 249-250). -/
def poseAt (clamp : ℝ → ℝ) (c : Arc) (phi : ℝ) (q : PPose) : PPose :=
  { q with pos := c.center + (⟨Real.cos phi, Real.sin phi⟩ : P2).smul c.radius,
           theta := clamp (phi + c.dir * pi / 2) }

/-- The loop of `toPoses` (circle.cpp:243-247) and the last `phi`. -/
def fill (clamp : ℝ → ℝ) (c : Arc) (dphi : ℝ) : Nat → Nat → ℝ → List PPose → List PPose × ℝ
  | 0, _, phi, v => (v, phi)
  | n + 1, i, phi, v =>
    fill clamp c dphi n (i + 1) (phi + dphi) (v.modify i (c.poseAt clamp phi))

/-- `toPoses` (circle.cpp:212-252); `clamp` is the external `MathHelper::AngleClamp`. -/
def toPoses (clamp : ℝ → ℝ) (c : Arc) (resolution : ℝ) (poses : List PPose) (moveDir : Int)
    (withStart : Bool) : CRes (List PPose) :=
  if |resolution| < 1 / 10000000000 then .ok []
  else do
    let steps ← castI |c.arcLength / resolution|
    let dphi := c.getArc / steps
    let (phi, dphi) := if moveDir = 1 then (c.start, dphi) else (c.endAngle, -1 * dphi)
    let dphi := if c.dir = -1 then -1 * dphi else dphi
    let (v, phi) ← (if withStart then (fun v => (v, phi)) <$> resizeV poses (steps + 1) {}
      else (fun v => (v, phi + dphi)) <$> resizeV poses steps {})
    let r := c.fill clamp dphi steps.toNat 0 phi v
    if withStart then pure (r.1.modify steps.toNat (c.poseAt clamp r.2)) else pure r.1

/-- `getAngleOfPoint` (circle.cpp:255-261). -/
def angleOf (c : Arc) (p : P2) : ℝ :=
  let cp := p - c.center
  let a := atan2 cp.y cp.x
  if a < 0 then a + 2 * pi else a

/-- `setStartAngle(point)` (circle.cpp:264-267). -/
def setStartP (c : Arc) (p : P2) : Arc := c.setStart (c.angleOf p)
/-- `setEndAngle(point)` (circle.cpp:270-273). -/
def setEndP (c : Arc) (p : P2) : Arc := c.setEnd (c.angleOf p)

/-- `selectStartPoint` (circle.h:50-57). -/
def selectStart (c : Arc) (p : P2) (tol : ℝ := distEps) : Bool × Arc :=
  if |(p - c.center).length - c.radius| < tol then (true, c.setStartP p) else (false, c)

/-- `selectEndPoint` (circle.h:59-66). -/
def selectEnd (c : Arc) (p : P2) (tol : ℝ := distEps) : Bool × Arc :=
  if |(p - c.center).length - c.radius| < tol then (true, c.setEndP p) else (false, c)

/-- `isPointOnArc` (circle.cpp:278-311). -/
def onArc (c : Arc) (p : P2) (tol : ℝ := distEps) : Bool :=
  let d := (c.center - p).length
  if |d - c.radius| > tol then false
  else
    let a := c.angleOf p
    if c.dir = 1 then
      let e := c.start + c.arc
      if e ≤ 2 * pi then decide (a ≥ c.start ∧ a ≤ e)
      else decide (a ≥ c.start ∨ a ≤ e - 2 * pi)
    else
      let e := c.start - c.arc
      if e ≥ 0 then decide (a ≥ e ∧ a ≤ c.start)
      else decide (a ≥ e + 2 * pi ∨ a ≤ c.start)

/-- `compareArcAngle` (circle.cpp:314-319; the pointer version 322-328 is the same). -/
def less (a b : Arc) : Bool := decide (|a.getArc| < |b.getArc|)

/-- `distanceTo` (circle.cpp:342-361). -/
def distanceTo (c : Arc) (p : P2) : ℝ :=
  let cp := p - c.center
  if cp.length > distEps ∧ c.onArc (c.center + (unit cp).smul c.radius) = true then
    |cp.length - c.radius|
  else min (p - c.startPoint).length (p - c.endPoint).length

/-- `nearestPointTo` (circle.cpp:363-385). -/
def nearest (c : Arc) (p : P2) : P2 :=
  let cp := p - c.center
  let a := c.center + (unit cp).smul c.radius
  if cp.length > distEps ∧ c.onArc a = true then a
  else if (p - c.startPoint).length < (p - c.endPoint).length then c.startPoint else c.endPoint

end Arc

/-! ### Intersector -/

/-- `Intersector::intersect(circle, circle)` (src/geometry/intersector.cpp:41-93): the new content of
the output vector. `throw "NaN"` stands for points with NaN coordinates (square root of a negative
number, reached only for `h_sq = -tol*tol` exactly). -/
def intersectCC (c1 c2 : Arc) (old : List P2) (tol : ℝ := distEps) : CRes (List P2) :=
  let tol := |tol|
  let v := c2.center - c1.center
  let d := v.length
  if d < tol then .ok old
  else
    let r1 := c1.radius
    let r2 := c2.radius
    let m := r1 + r2
    let n := |r1 - r2|
    if d > m + tol then .ok []
    else if d + tol < n then .ok []
    else if |d| < tol ∧ |r1 - r2| < tol then .ok []
    else
      let a := (r1 * r1 - r2 * r2 + d * d) / (2 * d)
      let p : P2 := ⟨c1.center.x + (a / d) * v.x, c1.center.y + (a / d) * v.y⟩
      if |r1 + r2 - d| < tol ∨ d + |r1 - r2| < tol then .ok [p]
      else
        let hsq := r1 * r1 - a * a
        let hsq' := if |hsq| < tol * tol then 0 else hsq
        if ¬ |hsq| < tol * tol ∧ hsq < -(tol * tol) then .ok []
        else if hsq' < 0 then .throw "NaN"
        else
          let h := Real.sqrt hsq'
          if h < tol then .ok [p]
          else .ok [p + (⟨v.y, -1 * v.x⟩ : P2).smul (h / d), p + (⟨-1 * v.y, v.x⟩ : P2).smul (h / d)]

/-- `Intersector::intersectArcs` (intersector.cpp:96-108). -/
def intersectArcs (c1 c2 : Arc) (tol : ℝ := distEps) : CRes (List P2) := do
  let ip ← intersectCC c1 c2 [] tol
  pure (ip.filter (fun p => c1.onArc p && c2.onArc p))

/-- `Intersector::intersect(line, circle)` (intersector.cpp:111-155). With a negative discriminant in
the last branch all comparisons with NaN are false. A degenerate line (`a = 0`) is not modelled. -/
def intersectLC (l : Ln) (k : Arc) (tol : ℝ := distEps) : List P2 :=
  let tol := |tol|
  let p1 := l.s
  let p2 := l.e
  let c1 := k.center
  let p12 := p2 - p1
  let c1p1 := p1 - c1
  let r := k.radius
  let a := p12.x * p12.x + p12.y * p12.y
  let b := 2 * (p12.x * c1p1.x + p12.y * c1p1.y)
  let c := (c1.x * c1.x + c1.y * c1.y) + (p1.x * p1.x + p1.y * p1.y) - 2 * (c1.x * p1.x + c1.y * p1.y)
    - r * r
  let D := b * b - 4 * a * c
  if D < -(tol * tol) then []
  else if |D| < tol * tol then
    let mu := -b / (2 * a)
    if mu ≥ 0 ∧ mu ≤ 1 then [p1 + p12.smul mu] else []
  else if D < 0 then []
  else
    let mu1 := (-b - Real.sqrt D) / (2 * a)
    let mu2 := (-b + Real.sqrt D) / (2 * a)
    if mu1 < 0 ∧ mu2 < 0 then []
    else (if mu1 ≥ 0 ∧ mu1 ≤ 1 then [p1 + p12.smul mu1] else []) ++
      (if mu2 ≥ 0 ∧ mu2 ≤ 1 then [p1 + p12.smul mu2] else [])

/-! ### Tangentor -/

/-- `res.push_back(Circle(p, radius, direction))` for a list of centres. -/
def circlesAt (radius : ℝ) (dir : Int) : List P2 → CRes (List Arc)
  | [] => .ok []
  | p :: ps => do
    let c ← Arc.new p radius dir
    let r ← circlesAt radius dir ps
    pure (c :: r)

/-- `tangentCircles` (src/geometry/tangentor.cpp:46-66). -/
def tangentCircles (l : Ln) (k : Arc) (radius : ℝ) (tol : ℝ := distEps) : CRes (List Arc) := do
  let c2 ← Arc.new k.center (k.radius + radius) k.dir
  let a ← circlesAt radius (k.dir * (-1)) (intersectLC (l.parallel radius) c2 tol)
  let b ← circlesAt radius (k.dir * (-1)) (intersectLC (l.parallel (-radius)) c2 tol)
  pure (a ++ b)

/-- One round of the loop of `tangentArc(line, circle)` (tangentor.cpp:133-157): the arc added, if
any. -/
def arcFromLine (l : Ln) (k : Arc) (tol : ℝ) (t : Arc) : Option Arc :=
  let pos := l.relPos t.center tol
  if pos = 0 then none
  else if (t.dir > 0 ∧ pos > 0) ∨ (t.dir < 0 ∧ pos < 0) then
    let t := t.setStartP (l.foot t.center)
    match intersectLC ⟨t.center, k.center⟩ t tol with
    | [q] => some (t.setEndP q)
    | _ => none
  else none

/-- `tangentArc(line, circle)` (tangentor.cpp:123-158). -/
def tangentArcFromLine (l : Ln) (k : Arc) (radius : ℝ) (tol : ℝ := distEps) : CRes (List Arc) := do
  let ts ← tangentCircles l k radius tol
  pure (ts.filterMap (arcFromLine l k tol))

/-- One round of the loop of `tangentArc(circle, line)` (tangentor.cpp:171-199). -/
def arcToLine (l : Ln) (k : Arc) (tol : ℝ) (t : Arc) : Option Arc :=
  let pos := l.relPos t.center tol
  if pos = 0 then none
  else if (t.dir > 0 ∧ pos > 0) ∨ (t.dir < 0 ∧ pos < 0) then
    match intersectLC ⟨t.center, k.center⟩ t tol with
    | [q] =>
      let t := t.setStartP q
      some (t.setEndP (l.foot t.center))
    | _ => none
  else none

/-- `tangentArc(circle, line)` (tangentor.cpp:161-201). -/
def tangentArcToLine (k : Arc) (l : Ln) (radius : ℝ) (tol : ℝ := distEps) : CRes (List Arc) := do
  let ts ← tangentCircles l k radius tol
  pure (ts.filterMap (arcToLine l k tol))

/-- `std::min_element` with `compareArcAngle`: the first minimal element. -/
def minArc : Arc → List Arc → Arc
  | m, [] => m
  | m, a :: as => minArc (if a.less m then a else m) as

/-- A `Shape`. -/
inductive Shape where
  | line (l : Ln)
  | arc (c : Arc)

/-- `tangentPath(line, circle)` (tangentor.cpp:69-95); its parameter `tol` is not used. -/
def pathLineCircle (l : Ln) (k : Arc) (radius : ℝ) : CRes (List Shape) := do
  match ← tangentArcFromLine l k radius with
  | [] => pure []
  | a :: as =>
    let t := minArc a as
    pure [.line ⟨l.s, t.startPoint⟩, .arc t, .arc ((k.setStartP t.endPoint).setArcAngle (2 * pi))]

/-- `tangentPath(circle, line)` (tangentor.cpp:98-120). -/
def pathCircleLine (k : Arc) (l : Ln) (radius : ℝ) : CRes (List Shape) := do
  match ← tangentArcToLine k l radius with
  | [] => pure []
  | a :: as =>
    let t := minArc a as
    pure [.arc (k.selectEnd t.startPoint).2, .arc t, .line ⟨t.endPoint, l.e⟩]

/-- `tangentInnerCircles` (tangentor.cpp:204-225). -/
def tangentInnerCircles (k1 k2 : Arc) (radius : ℝ) (tol : ℝ := distEps) : CRes (List Arc) :=
  if radius ≥ k2.radius then .ok []
  else do
    let large ← Arc.new k1.center (k1.radius + radius) k1.dir
    let small ← Arc.new k2.center (k2.radius - radius) k2.dir
    let ip ← intersectCC large small [] tol
    circlesAt radius k2.dir ip

/-- The loop of `tangentPath(small, large)` (tangentor.cpp:240-254). -/
def innerArcs (small large : Arc) (fromSmall : Bool) (tol : ℝ) : List Arc → CRes (List Arc)
  | [] => .ok []
  | t :: ts => do
    let is ← intersectArcs small t tol
    let il ← intersectArcs t large tol
    let rest ← innerArcs small large fromSmall tol ts
    match is, il with
    | [a], [b] =>
      let t := if fromSmall then t else ((t.selectStart b).2.selectEnd a).2
      pure (t :: rest)
    | _, _ => pure rest

/-- `tangentPath(small, large)` (tangentor.cpp:228-290). -/
def pathCircleCircle (small large : Arc) (radius : ℝ) (fromSmall : Bool) (tol : ℝ := distEps) :
    CRes (List Shape) := do
  let ts ← tangentInnerCircles small large radius tol
  match ← innerArcs small large fromSmall tol ts with
  | [] => pure []
  | a :: as =>
    let t := minArc a as
    if t.getArc > pi then pure []
    else if fromSmall then
      pure [.arc (small.selectEnd t.startPoint).2, .arc t, .arc (large.selectStart t.endPoint).2]
    else
      pure [.arc (large.selectEnd t.startPoint).2, .arc t, .arc (small.selectStart t.endPoint).2]

/-- `tangentPath(shape, circle)` (tangentor.cpp:24-43). -/
def pathShapeCircle (s : Shape) (k : Arc) (radius : ℝ) (firstToSecond : Bool) : CRes (List Shape) :=
  match s with
  | .line l => if firstToSecond then pathLineCircle l k radius else pathCircleLine k l radius
  | .arc c => pathCircleCircle k c radius (!firstToSecond)

/-- The loop of `tangentInnerArcs` (tangentor.cpp:304-320). -/
def innerArcs2 (k1 k2 : Arc) (tol : ℝ) : List Arc → CRes (List Arc)
  | [] => .ok []
  | t :: ts => do
    let ip ← intersectArcs k1 t tol
    match ip with
    | [a] =>
      let t := t.setStartP a
      let ip2 ← intersectArcs t k2 tol
      let rest ← innerArcs2 k1 k2 tol ts
      match ip2 with
      | [b] => pure (t.setEndP b :: rest)
      | _ => pure rest
    | _ => innerArcs2 k1 k2 tol ts

/-- The selection of the shorter arc (tangentor.cpp:325-334), the initial bound being the largest
`double`. -/
def shortest (dmax : ℝ) : List Arc → Nat → Nat → ℝ → Nat
  | [], _, best, _ => best
  | a :: as, i, best, bound =>
    if a.getArc < bound then shortest dmax as (i + 1) i a.getArc else shortest dmax as (i + 1) best bound

/-- `tangentInnerArcs` (tangentor.cpp:293-338); `dmax` is `numeric_limits<double>::max()`. -/
def tangentInnerArcs (dmax : ℝ) (k1 k2 : Arc) (radius : ℝ) (tol : ℝ := distEps) : CRes (List Arc) :=
  if k1.dir = k2.dir then .ok []
  else do
    let ts ← tangentInnerCircles k1 k2 radius tol
    let arcs ← innerArcs2 k1 k2 tol ts
    match arcs with
    | [] => pure []
    | [a] => pure [a]
    | a :: as => do
      let r ← vget (a :: as) (shortest dmax (a :: as) 0 0 dmax)
      pure [r]

end PathPlanning.Shapes
