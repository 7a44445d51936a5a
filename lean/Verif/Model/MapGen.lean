import Verif.Prelude
import Mathlib.Data.List.Basic
import Mathlib.Algebra.Order.Field.Rat

/-!
# Model of the map generators

Source: `/repo/include/cslibs_path_planning/evaluation/MapGenerators.hpp` (lines as cited), used by
`/repo/src/evaluation/evaluator.cpp:225-246`.

`int` is `ℤ` (no overflow).  `rand` is a stream `rnd` of non-negative numbers.  The image is represented by its size and
the list of pairs of rooms for which `removeWallsBetween` was called; `Open` in `Spec/MapGen.lean` says which pixels this
paints.
-/

namespace PathPlanning.MapGen

/-- `cv::Point`: a room of the maze. -/
abbrev Room := Int × Int

/-- Members of `Maze` (MapGenerators.hpp:178-190) after construction; `rows`, `cols`: size of the image. -/
structure Maze where
  width : Int
  border : Int
  w : Int
  h : Int
  rows : Int
  cols : Int
  visited : List Bool

/-- `IDX` (MapGenerators.hpp:151-156): only equality with the upper bounds is tested. -/
def idx (w h : Int) (p : Room) : Int :=
  if p.1 < 0 ∨ p.2 < 0 ∨ p.1 = h ∨ p.2 = w then -1 else p.2 * h + p.1

/-- `visited[i]` for an `int` index. -/
def readV (v : List Bool) (i : Int) : CRes Bool := if i < 0 then .ub else vget v i.toNat

/-- `visited[i] = b`. -/
def writeV (v : List Bool) (i : Int) (b : Bool) : CRes (List Bool) := if i < 0 then .ub else vset v i.toNat b

/-- The rooms in the order of the loops of `init` (MapGenerators.hpp:74-78). -/
def rooms (w h : Int) : List Room :=
  (List.range w.toNat).flatMap fun (y : Nat) => (List.range h.toNat).map fun (x : Nat) => ((x : Int), (y : Int))

/-- `init` (MapGenerators.hpp:66-79): all entries set (`memset` with 1), then those of the rooms cleared.
A negative `N` is an invalid array size. -/
def initVisited (w h : Int) : CRes (List Bool) :=
  if w * h < 0 then .throw "bad_array_new_length"
  else (rooms w h).foldlM (fun v p => writeV v (idx w h p) false) (List.replicate (w * h).toNat true)

/-- Constructor (MapGenerators.hpp:11-22).  The member `width` is clamped to at least 2, but in the body `width` is the
constructor's parameter. -/
def Maze.new (width rows cols : Int) : CRes Maze :=
  if width = 0 then .ub
  else do
    let w := rows.tdiv width
    let h := cols.tdiv width
    let v ← initVisited w h
    pure { width := max 2 width, border := max 1 (width.tdiv 4), w := w, h := h, rows := rows, cols := cols, visited := v }

/-- `dx__`, `dy__` (MapGenerators.hpp:67-70). -/
def dir : Nat → Room
  | 0 => (-1, 0)
  | 1 => (0, -1)
  | 2 => (1, 0)
  | _ => (0, 1)

/-- `pt + (dx__[n], dy__[n])`. -/
def step (p : Room) (n : Nat) : Room := (p.1 + (dir n).1, p.2 + (dir n).2)

/-- The test `idx >= 0 && !visited[idx]` for direction `n` (MapGenerators.hpp:88-89, 125-126). -/
def open? (w h : Int) (v : List Bool) (p : Room) (n : Nat) : CRes Bool :=
  let i := idx w h (step p n)
  if i < 0 then .ok false
  else do
    let b ← readV v i
    pure (!b)

/-- `hasUnvisitedNeighbor` (MapGenerators.hpp:86-95); the argument is the list of directions still to be tested. -/
def hasUnvisited (w h : Int) (v : List Bool) (p : Room) : List Nat → CRes Bool
  | [] => .ok false
  | n :: ns => do
    let b ← open? w h v p n
    if b then pure true else hasUnvisited w h v p ns

open Classical in
/-- A `while(true)` loop: the number of the first iteration in which the body leaves the loop; `none` if the loop runs
forever. -/
noncomputable def firstExit (leaves : Nat → Prop) : Option Nat :=
  if h : ∃ k, leaves k then some (Nat.find h) else none

/-- One iteration of the loop of `getRandomUnvisitedNeighborCell` (MapGenerators.hpp:121-134): `ok none` continues. -/
def tryDir (w h : Int) (v : List Bool) (p : Room) (n : Nat) : CRes (Option Room) := do
  let b ← open? w h v p n
  if b then
    let q := step p n
    if q.1 < 0 ∨ q.2 < 0 ∨ q.1 = h ∨ q.2 = w then pure none else pure (some q)
  else pure none

/-- `getRandomUnvisitedNeighborCell` (MapGenerators.hpp:117-137), drawing random numbers from position `pos`: the room and
the next position; `ok none`: runs forever. -/
noncomputable def pickNeighbor (rnd : Nat → Nat) (w h : Int) (v : List Bool) (p : Room) (pos : Nat) :
    CRes (Option (Room × Nat)) := do
  let a ← hasUnvisited w h v p [0, 1, 2, 3]
  if !a then .ub
  else
    match firstExit fun k => tryDir w h v p (rnd (pos + k) % 4) ≠ .ok none with
    | none => pure none
    | some k => do
      let q ← tryDir w h v p (rnd (pos + k) % 4)
      pure (q.map fun q => (q, pos + k + 1))

/-- One step of the inner loop of `getRandomUnvisitedCell` (MapGenerators.hpp:104-112). -/
def nextCell (w h : Int) (p : Room) : Room :=
  let x := p.1 + 1
  let q : Room := if x = h then (0, p.2 + 1) else (x, p.2)
  if q.2 = w then (q.1, 0) else q

/-- `getRandomUnvisitedCell` (MapGenerators.hpp:97-115); `ok none`: runs forever. -/
noncomputable def pickCell (rnd : Nat → Nat) (w h : Int) (v : List Bool) (pos : Nat) : CRes (Option (Room × Nat)) :=
  if h = 0 ∨ w = 0 then .ub
  else
    let p0 : Room := ((rnd pos : Int).tmod h, (rnd (pos + 1) : Int).tmod w)
    match firstExit fun k => readV v (idx w h ((nextCell w h)^[k] p0)) ≠ .ok true with
    | none => .ok none
    | some k => do
      let _ ← readV v (idx w h ((nextCell w h)^[k] p0))
      pure (some ((nextCell w h)^[k] p0, pos + 2))

/-- Local variables of `run` and the members it changes; `links`: the calls of `removeWallsBetween`, latest first; `pos`:
number of random numbers drawn. -/
structure MSt where
  visited : List Bool
  expanded : Int
  stack : List Room
  cur : Room
  links : List (Room × Room)
  pos : Nat

/-- `mark` (MapGenerators.hpp:81-84). -/
def mark (w h : Int) (s : MSt) (p : Room) : CRes MSt := do
  let v ← writeV s.visited (idx w h p) true
  pure { s with visited := v, expanded := s.expanded + 1 }

/-- The loop of `run` (MapGenerators.hpp:33-55); `none`: out of fuel or an endless inner loop. -/
noncomputable def runLoop (rnd : Nat → Nat) (w h : Int) : Nat → MSt → CRes (Option MSt)
  | 0, _ => .ok none
  | n + 1, s =>
    if s.expanded < w * h then do
      let a ← hasUnvisited w h s.visited s.cur [0, 1, 2, 3]
      if a then
        let r ← pickNeighbor rnd w h s.visited s.cur s.pos
        match r with
        | none => .ok none
        | some (next, pos) =>
          let b ← readV s.visited (idx w h next)
          if b then .ub
          else
            let s' ← mark w h { s with stack := s.cur :: s.stack, links := (s.cur, next) :: s.links, cur := next,
                                       pos := pos } next
            runLoop rnd w h n s'
      else
        match s.stack with
        | p :: ps => runLoop rnd w h n { s with stack := ps, cur := p }
        | [] =>
          let r ← pickCell rnd w h s.visited s.pos
          match r with
          | none => .ok none
          | some (p, pos) =>
            let s' ← mark w h { s with cur := p, pos := pos } p
            runLoop rnd w h n s'
    else if s.expanded = w * h then .ok (some s) else .ub

section
variable {K : Type} [Field K] [LinearOrder K] [FloorRing K]

/-- `run` (MapGenerators.hpp:24-58) from the room of the start pose; the goal is not used. -/
noncomputable def Maze.run (m : Maze) (rnd : Nat → Nat) (sx sy : K) (fuel : Nat) : CRes (Option MSt) := do
  let x ← castI (sx / (m.width : K))
  let y ← castI (sy / (m.width : K))
  let s ← mark m.w m.h { visited := m.visited, expanded := 0, stack := [], cur := (x, y), links := [], pos := 0 } (x, y)
  runLoop rnd m.w m.h fuel s

end

/-- `cv::Rect`. -/
structure Rect where
  x : Int
  y : Int
  width : Int
  height : Int
deriving DecidableEq

/-- `rectFor` (MapGenerators.hpp:170-176; both branches are the same). -/
def rectFor (width border : Int) (p : Room) : Rect :=
  ⟨p.1 * width + border.tdiv 2, p.2 * width + border.tdiv 2, width - border, width - border⟩

/-- The rectangle in the middle (MapGenerators.hpp:142): `half z` is OpenCV's rounding of `0.5 * z` to `int`. -/
def middle (half : Int → Int) (a b : Rect) : Rect := ⟨half (a.x + b.x), half (a.y + b.y), a.width, a.height⟩

/-- The rectangles filled by `removeWallsBetween` (MapGenerators.hpp:139-147). -/
def carve (half : Int → Int) (width border : Int) (l : Room × Room) : List Rect :=
  let r1 := rectFor width border l.1
  let r2 := rectFor width border l.2
  [r1, middle half r1 r2, r2]

/-! ### Hilbert curve -/

/-- `DIR` (MapGenerators.hpp:221-226). -/
inductive Dir where
  | up | left | down | right
deriving DecidableEq

/-- The neighbour computed by `move` (MapGenerators.hpp:230-245). -/
def Dir.of (p : Room) : Dir → Room
  | .left => (p.1 - 1, p.2)
  | .right => (p.1 + 1, p.2)
  | .up => (p.1, p.2 - 1)
  | .down => (p.1, p.2 + 1)

/-- State of the generator: `current` and the calls of `removeWallsBetween`, oldest first. -/
structure HSt where
  cur : Room
  links : List (Room × Room)

/-- `move` (MapGenerators.hpp:228-249). -/
def move (d : Dir) (s : HSt) : HSt := ⟨d.of s.cur, s.links ++ [(s.cur, d.of s.cur)]⟩

/-- `hilbert_level(n + 1, d)` (MapGenerators.hpp:251-316).  For a level of zero or less the recursion of the code does
not end; this is not modelled. -/
def hilbert : Nat → Dir → HSt → HSt
  | 0, .left, s => move .left (move .down (move .right s))
  | 0, .right, s => move .right (move .up (move .left s))
  | 0, .up, s => move .up (move .right (move .down s))
  | 0, .down, s => move .down (move .left (move .up s))
  | n + 1, .left, s =>
    hilbert n .down (move .left (hilbert n .left (move .down (hilbert n .left (move .right (hilbert n .up s))))))
  | n + 1, .right, s =>
    hilbert n .up (move .right (hilbert n .right (move .up (hilbert n .right (move .left (hilbert n .down s))))))
  | n + 1, .up, s =>
    hilbert n .right (move .up (hilbert n .up (move .right (hilbert n .up (move .down (hilbert n .left s))))))
  | n + 1, .down, s =>
    hilbert n .left (move .down (hilbert n .down (move .left (hilbert n .down (move .up (hilbert n .right s))))))

/-- `HilbertCurve::run` (MapGenerators.hpp:209-219): level 8 from room (1,1), whatever the size of the map and the start. -/
def hilbertRun : HSt := hilbert 7 .up ⟨(1, 1), []⟩

end PathPlanning.MapGen
