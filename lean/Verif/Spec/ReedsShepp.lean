import Verif.Spec.Geom
import Verif.Model.ReedsShepp

/-!
# Specification: patterns of Reeds-Shepp curves and driving a car exactly

Written without reference to how the generator computes anything.  From the model only the enums
`Dir`, `Ori` and the plane types are used.
-/

noncomputable section

namespace PathPlanning.Spec

open RS (Dir Ori)

/-! ### Patterns -/

/-- What a letter of a pattern asks for. -/
inductive Elem where
  | straight (d : Dir)
  | turn (o : Ori) (d : Dir)
deriving DecidableEq, Repr

/-- The driving direction after a prefix of a pattern: reversed once for each `|`. -/
def dirAfter (s : List Char) : Dir := if s.count '|' % 2 = 0 then .fwd else .bwd

/-- The elements a pattern asks for, in order: `S`, `L`, `R`, each with the driving direction in
force at that place; all other characters contribute nothing. -/
def elems (s : List Char) : List Elem :=
  (List.range s.length).filterMap fun i =>
    match s[i]? with
    | some 'S' => some (.straight (dirAfter (s.take i)))
    | some 'L' => some (.turn .left (dirAfter (s.take i)))
    | some 'R' => some (.turn .right (dirAfter (s.take i)))
    | _ => none

/-- The last element of a prefix is a turn. -/
def EndsInTurn (s : List Char) : Prop := ∃ o d, (elems s).getLast? = some (.turn o d)

/-- The language of patterns: letters `S L R |`, and parenthesised sub-patterns over `b` and `p`,
where `b` may only be used if the last letter before the parenthesis is a turn. -/
inductive Pattern : List Char → Prop
  | nil : Pattern []
  | letter {s : List Char} {ch : Char} : Pattern s → ch ∈ ['S', 'L', 'R', '|'] →
      Pattern (s ++ [ch])
  | sub {s t : List Char} : Pattern s → (∀ ch ∈ t, ch = 'b' ∨ ch = 'p') →
      ('b' ∈ t → EndsInTurn s) → Pattern (s ++ '(' :: t ++ [')'])

/-! ### Driving -/

/-- `+1` for forward, `-1` for backward. -/
def dirSign : Dir → ℝ
  | .fwd => 1
  | .bwd => -1

/-- `+1` for left, `-1` for right. -/
def oriSign : Ori → ℝ
  | .left => 1
  | .right => -1

/-- The exact motion of a car: `q` is position and heading, `amount` is the driven length (straight)
or the turned angle (turn with radius `r`).  A car turning left with heading `h` moves on the circle
`(cx + r sin h, cy - r cos h)`, one turning right on `(cx - r sin h, cy + r cos h)`. -/
def drive (r : ℝ) (q : Pose) (e : Elem) (amount : ℝ) : Pose :=
  match e with
  | .straight d =>
    ⟨q.x + dirSign d * amount * Real.cos q.theta, q.y + dirSign d * amount * Real.sin q.theta, q.theta⟩
  | .turn o d =>
    let h := q.theta + oriSign o * dirSign d * amount
    ⟨q.x + oriSign o * r * (Real.sin h - Real.sin q.theta),
     q.y - oriSign o * r * (Real.cos h - Real.cos q.theta), h⟩

/-- Drive a sequence of elements. -/
def driveAll (r : ℝ) (q : Pose) : List (Elem × ℝ) → Pose
  | [] => q
  | (e, a) :: rest => driveAll r (drive r q e a) rest

/-- Same position, and headings equal up to full turns. -/
def SameConfig (p q : Pose) : Prop :=
  p.x = q.x ∧ p.y = q.y ∧ ∃ k : Int, p.theta = q.theta + k * (2 * Real.pi)

/-- A point moving on a circle from angle `start` by the signed angle `arc` passes over the direction
of the offset `(dx,dy)` from the centre. -/
def ArcPasses (start arc dx dy : ℝ) : Prop :=
  ∃ t : ℝ, 0 ≤ t ∧ t ≤ 1 ∧ ∃ d : ℝ, 0 < d ∧
    dx = d * Real.cos (start + t * arc) ∧ dy = d * Real.sin (start + t * arc)

/-- Consecutive turns change sides. -/
def Alternating : List Elem → Prop
  | .turn o _ :: .turn o' d' :: rest => o ≠ o' ∧ Alternating (.turn o' d' :: rest)
  | _ :: rest => Alternating rest
  | [] => True

/-- The element described by a segment of a curve. -/
def elemOf : RS.Seg → Elem
  | .line l => .straight l.dir
  | .circ c => .turn c.ori c.dir

/-- The length driven on a straight segment, the angle turned on a circle segment. -/
def amountOf : RS.Seg → ℝ
  | .line l => eucl l.start.pt l.stop.pt
  | .circ c => |c.arc|

/-- The motion described by a curve. -/
def motion (c : RS.Curve) : List (Elem × ℝ) := c.seq.map fun s => (elemOf s, amountOf s)

/-! ### Way points -/

/-- The way points of one element driven from `q`, with nominal distance `md`: on a turn every `md`
along the arc, `max(1, ⌊length/md⌋) + 1` of them; on a straight `⌊length/md⌋` evenly spaced ones, the
first at the start, none at the end. -/
def elemWaypoints (r md : ℝ) (q : Pose) (e : Elem) (a : ℝ) : List Pose :=
  match e with
  | .straight _ =>
    (List.range ⌊a / md⌋.toNat).map fun i : Nat => drive r q e (i * (a / ⌊a / md⌋.toNat))
  | .turn _ _ =>
    (List.range (max 1 ⌊a * r / md⌋.toNat + 1)).map fun i : Nat => drive r q e (i * (md / r))

/-- The way points of a motion. -/
def waypoints (r md : ℝ) : Pose → List (Elem × ℝ) → List Pose
  | _, [] => []
  | q, (e, a) :: rest => elemWaypoints r md q e a ++ waypoints r md (drive r q e a) rest

end PathPlanning.Spec
