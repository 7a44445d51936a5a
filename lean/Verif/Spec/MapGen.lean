import Verif.Model.MapGen
import Verif.Spec.GridPath
import Mathlib.Combinatorics.SimpleGraph.Acyclic

/-!
# Specification of the map generators
-/

namespace PathPlanning.Spec
open PathPlanning.MapGen

/-- A room of a maze of `h` columns and `w` rows. -/
def InGrid (w h : Int) (p : Room) : Prop := (0 ≤ p.1 ∧ p.1 < h) ∧ (0 ≤ p.2 ∧ p.2 < w)

/-- The walls between two rooms were removed. -/
def Linked (links : List (Room × Room)) (a b : Room) : Prop := (a, b) ∈ links ∨ (b, a) ∈ links

/-- The rooms of the maze with the passages. -/
def mazeGraph (w h : Int) (links : List (Room × Room)) : SimpleGraph {p : Room // InGrid w h p} where
  Adj a b := a ≠ b ∧ Linked links a.1 b.1
  symm := ⟨fun _ _ h => ⟨h.1.symm, h.2.symm⟩⟩
  loopless := ⟨fun _ h => h.1 rfl⟩

/-- The pixels of a rectangle of OpenCV. -/
def InRect (r : Rect) (px : Int × Int) : Prop := (r.x ≤ px.1 ∧ px.1 < r.x + r.width) ∧ (r.y ≤ px.2 ∧ px.2 < r.y + r.height)

/-- Rounding of `z / 2` to one of the nearest integers (ties either way). -/
def HalfRound (half : Int → Int) : Prop := ∀ z, |2 * half z - z| ≤ 1

/-- The pixels painted white by removing the walls of `links` in an image of the given size: `cv::rectangle` fills the
pixels of the rectangle that lie in the image. -/
def Carved (half : Int → Int) (width border rows cols : Int) (links : List (Room × Room)) (px : Int × Int) : Prop :=
  ((0 ≤ px.1 ∧ px.1 < cols) ∧ (0 ≤ px.2 ∧ px.2 < rows)) ∧ ∃ l ∈ links, ∃ r ∈ carve half width border l, InRect r px

/-- The pixels between two rectangles (side by side or one above the other): in the smallest rectangle containing both,
but in neither of them. -/
def Between (r1 r2 : Rect) (px : Int × Int) : Prop :=
  (min r1.x r2.x ≤ px.1 ∧ px.1 < max (r1.x + r1.width) (r2.x + r2.width)) ∧
  (min r1.y r2.y ≤ px.2 ∧ px.2 < max (r1.y + r1.height) (r2.y + r2.height)) ∧ ¬ InRect r1 px ∧ ¬ InRect r2 px

/-- `path` goes from `p` to `q` in unit steps and meets every room of `S` exactly once and no other. -/
structure Sweep (p q : Room) (S : Room → Prop) (path : List Room) : Prop where
  head : path.head? = some p
  last : path.getLast? = some q
  chain : path.IsChain (Adj4 1)
  nodup : path.Nodup
  mem : ∀ c, c ∈ path ↔ S c

/-- The rooms of the square of side `D` whose smallest room is `c`. -/
def Square (c : Room) (D : Int) (p : Room) : Prop := (c.1 ≤ p.1 ∧ p.1 < c.1 + D) ∧ (c.2 ≤ p.2 ∧ p.2 < c.2 + D)

end PathPlanning.Spec
