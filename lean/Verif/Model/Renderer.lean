import Verif.Prelude

/-!
# Model of the map renderer of the evaluation tool

Sources: `/repo/include/cslibs_path_planning/evaluation/Renderer.hpp`, `evaluation/Util.hpp`.

An image (`cv::Mat` of 3-byte pixels) is its size and a colour for every row and column.  `double` is an exact number.
The drawing functions of OpenCV are modelled by the pixels they cover inside the image (`rectOutline`, `rectFilled`);
anti-aliased lines, circles and text are not modelled, neither is the one-metre raster drawn at the end of `renderMap`
(Renderer.hpp:280-288).
-/

namespace PathPlanning.Render

/-- `cv::Mat` with `rows × cols` pixels. -/
structure Img (Col : Type) where
  rows : Int
  cols : Int
  px : Int → Int → Col

variable {Col : Type}

/-- `out_.at<cv::Vec3b>(r, c) = col`; `at` outside of the image is undefined. -/
def Img.set (o : Img Col) (r c : Int) (col : Col) : CRes (Img Col) :=
  if 0 ≤ r ∧ r < o.rows ∧ 0 ≤ c ∧ c < o.cols then
    .ok { o with px := fun r' c' => if r' = r ∧ c' = c then col else o.px r' c' }
  else .ub

/-- Pixels of the border of the rectangle with corners `(x0,y0)` and `(x1,y1)` (both included), clipped to the image:
`cv::rectangle(img, cv::Rect(x0, y0, x1-x0+1, y1-y0+1), col, 1)`. -/
def Img.rectOutline (o : Img Col) (x0 y0 x1 y1 : Int) (col : Col) : Img Col :=
  { o with px := fun r c =>
      if (y0 ≤ r ∧ r ≤ y1 ∧ x0 ≤ c ∧ c ≤ x1) ∧ (r = y0 ∨ r = y1 ∨ c = x0 ∨ c = x1) then col else o.px r c }

/-- `cv::rectangle(img, cv::Point(x0,y0), cv::Point(x1,y1), col, CV_FILLED)`: both corners included. -/
def Img.rectFilled (o : Img Col) (x0 y0 x1 y1 : Int) (col : Col) : Img Col :=
  { o with px := fun r c =>
      if (min y0 y1 ≤ r ∧ r ≤ max y0 y1) ∧ (min x0 x1 ≤ c ∧ c ≤ max x0 x1) then col else o.px r c }

/-- Members of `MapRenderer` used for painting the map (Renderer.hpp:465-485): sizes of the map in cells and of the
image it expects, in pixels. -/
structure Geo where
  mapW : Nat
  mapH : Nat
  imgW : Nat
  imgH : Nat

/-- `setMap` (Renderer.hpp:60-68) with the template parameter `SCALE`. -/
def Geo.setMap (scale w h : Nat) : Geo := ⟨w, h, w * scale, h * scale⟩

/-- The two loops of `fill` (Renderer.hpp:304-315) for the pixel `(dx, dy)`: the pixel of the image is
`(rows - 1 - dy, dx)`; pixels outside of the size remembered in `setMap` are skipped. -/
def fillPixel (g : Geo) (o : Img Col) (dx dy : Nat) (col : Col) : CRes (Img Col) :=
  let yy : Int := o.rows - 1 - dy
  let xx : Int := dx
  if yy < 0 ∨ xx < 0 ∨ (g.imgH : Int) ≤ yy ∨ (g.imgW : Int) ≤ xx then .ok o
  else o.set yy xx col

/-- Pixels visited by the loops of `fill` (Renderer.hpp:304-305), in this order. -/
def blockPixels (n x y : Nat) : List (Nat × Nat) :=
  (List.range n).flatMap fun (j : Nat) => (List.range n).map fun (i : Nat) => (n * x + i, n * y + j)

/-- `fill(Int2Type<N>, x, y, col)` (Renderer.hpp:290-322); for `N = 1` the overload for `Int2Type<true>` writes the one
pixel without the test.  `grid` is the colour `anthrazite` of the outline. -/
def fill (g : Geo) (grid : Col) (n : Nat) (o : Img Col) (x y : Nat) (col : Col) : CRes (Img Col) :=
  if n = 1 then o.set (o.rows - 1 - y) x col
  else do
    let o ← (blockPixels n x y).foldlM (fun o p => fillPixel g o p.1 p.2 col) o
    if n > 2 then
      let sx : Int := n * x
      let yy : Int := o.rows - 1 - (n * y : Nat) - n
      pure (o.rectOutline sx yy (sx + n) (yy + n) grid)
    else pure o

/-- Cells in the order of the loops of `renderMap` (Renderer.hpp:254-255). -/
def cells (w h : Nat) : List (Nat × Nat) :=
  (List.range h).flatMap fun (y : Nat) => (List.range w).map fun (x : Nat) => (x, y)

/-- The loops of `renderMap` (Renderer.hpp:254-279); `colour x y` is the colour computed for the cell. -/
def renderCells (g : Geo) (grid : Col) (n : Nat) (colour : Nat → Nat → Col) (o : Img Col) : CRes (Img Col) :=
  (cells g.mapW g.mapH).foldlM (fun o p => fill g grid n o p.1 p.2 (colour p.1 p.2)) o

/-! ### Colours -/

section num
variable {K : Type} [Field K] [LinearOrder K] [IsStrictOrderedRing K] [FloorRing K]

/-- Grey value of a free cell with heuristic `heur ≥ 0` (Renderer.hpp:269-272): `unsigned v = 255 - min(span, max(0,
(heur + render_offset) * render_factor / 255 * span))` with `span = 155`. -/
def grey (offset factor heur : K) : CRes Nat :=
  let span : K := 255 - 100
  castU (255 - min span (max 0 ((heur + offset) * factor / 255 * span)))

/-- Colour of a cell (Renderer.hpp:256-276): `anthrazite` unless free, `(220,200,200)` if there is no heuristic
(negative), otherwise grey. -/
def cellColour (anthrazite : Nat × Nat × Nat) (free : Bool) (offset factor heur : K) : CRes (Nat × Nat × Nat) :=
  if !free then .ok anthrazite
  else if heur < 0 then .ok (220, 200, 200)
  else do
    let v ← grey offset factor heur
    pure (v, v, v)

/-- Smallest and largest heuristic seen so far (`min`, `max` of `setFocus`). -/
structure Range (K : Type) where
  lo : K
  hi : K

/-- Body of the loops of `setFocus` (Renderer.hpp:393-412) for one cell; `inMapFree` is the test of line 397,
`v` the heuristic, `dblMax` = `numeric_limits<double>::max()`. -/
def Range.see (dblMax : K) (r : Range K) (inMapFree : Bool) (v : K) : Range K :=
  if !inMapFree then r
  else if v = dblMax then r
  else
    let r := if v > r.hi then { r with hi := v } else r
    if v < r.lo then { r with lo := v } else r

/-- Cells visited by `setFocus` (Renderer.hpp:390-393) around the cell `(x, y)`. -/
def focusCells (x y radius : Int) : List (Int × Int) :=
  (List.range (2 * radius + 1).toNat).flatMap fun (j : Nat) =>
    (List.range (2 * radius + 1).toNat).map fun (i : Nat) => (x - radius + i, y - radius + j)

/-- `setFocus` (Renderer.hpp:383-418): `(render_offset, render_factor)`.  `usable` tests whether a cell is on the map and
free, `heur` is its heuristic, `dblMin` = `numeric_limits<double>::min()` (the smallest positive normal number). -/
def setFocus (dblMax dblMin : K) (scale : Nat) (rows : Int) (usable : Int → Int → Bool) (heur : Int → Int → K)
    (xImg yImg radius : Int) : K × K :=
  let x := truncC ((xImg : K) / scale)
  let y := truncC (((rows - yImg : Int) : K) / scale)
  let r : Range K := (focusCells x y radius).foldl (fun (r : Range K) c => r.see dblMax (usable c.1 c.2) (heur c.1 c.2)) ⟨dblMax, dblMin⟩
  (-r.lo, 255 / (r.hi - r.lo))

/-- `findFocus` without a previous focus (Renderer.hpp:80-88). -/
def findFocus (dblMax dblMin : K) (g : Geo) (scale : Nat) (rows : Int) (usable : Int → Int → Bool)
    (heur : Int → Int → K) : K × K :=
  let wh : Int := (g.imgW / 2 : Nat)
  let hh : Int := (g.imgH / 2 : Nat)
  setFocus dblMax dblMin scale rows usable heur wh hh (max wh hh)

/-- `analyze` (Renderer.hpp:101-112): `max_dist`, over the distances of the nodes that have been reached. -/
def maxDist (dists : List K) : K := dists.foldl (fun m d => if d > m then d else m) 1

/-- Colour index and weights of `visualizeSearchSpaceGrid` (Renderer.hpp:136-145): `a`, `b`, `fa`, `fb`. -/
def stage (count : Int) (maxd dist : K) : Int × Int × K × K :=
  let idx := (dist / maxd - 1 / 10000) * ((count - 1 : Int) : K)
  let a := ⌊idx⌋
  let b := min (count - 1) (a + 1)
  (a, b, |idx - b|, |idx - a|)

/-- `stages[a] * fa + stages[b] * fb` (Renderer.hpp:147) for one channel; reading outside of the array is undefined. -/
def stageColour (stages : List K) (maxd dist : K) : CRes K :=
  let (a, b, fa, fb) := stage (stages.length : Int) maxd dist
  if a < 0 ∨ b < 0 then .ub
  else do
    let sa ← vget stages a.toNat
    let sb ← vget stages b.toNat
    pure (sa * fa + sb * fb)

/-- `visualizeSearchSpaceGrid` (Renderer.hpp:114-156): every reached node paints its cell; `nodes`: cell and distance of
the reached nodes in the order of `FOREACH_NODE`. -/
def visGrid (scale : Nat) (stages : List K) (maxd : K) (mapH : Int) (o : Img K) :
    List (Int × Int × K) → CRes (Img K)
  | [] => .ok o
  | (x, y, d) :: rest => do
    let col ← stageColour stages maxd d
    let x0 := x * scale
    let y0 := (mapH - y - 1) * scale
    visGrid scale stages maxd mapH (o.rectFilled x0 y0 (x0 + (scale - 1)) (y0 + (scale - 1)) col) rest

/-- `p2cv` (Util.hpp:30-33): pixel column and row of a point, truncated to `int`. -/
def p2cv (x y : K) (imgHeight scale : Int) : Int × Int := (truncC (x * scale), truncC ((imgHeight - y) * scale))

/-- `fillCell` (Renderer.hpp:371-375), the filled rectangle: from `p2cv` of the point one cell above the pose, `scale`
further in both directions, both corners included.  (The frame of lines 377-379 is not modelled.) -/
def fillCell (scale : Nat) (mapH : Int) (o : Img Col) (x y : K) (col : Col) : Img Col :=
  let tl := p2cv x (y + 1) mapH scale
  o.rectFilled tl.1 tl.2 (tl.1 + scale) (tl.2 + scale) col

end num

end PathPlanning.Render
