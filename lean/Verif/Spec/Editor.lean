import Verif.Model.Editor

/-!
# Specification vocabulary for C115 (editing with mouse and keyboard)
-/

namespace PathPlanning.Editor.Spec

open Eval

/-- Is a mouse button regarded as held after an event?  A press starts a drag, the release of any button ends it. -/
def holdAfter (held : Bool) : Event → Bool
  | .mouse .ldown _ _ => true
  | .mouse .rdown _ _ => true
  | .mouse .lup _ _ => false
  | .mouse .rup _ _ => false
  | _ => held

/-- Is a button held after a history that begins without one? -/
def Held (evs : List Event) : Bool := evs.foldl holdAfter false

/-- The keys s, g, f, m, n and o, which select what the mouse does. -/
def ModeKey (k : Nat) : Prop := k ∈ [115, 103, 102, 109, 110, 111]

/-- No mode key is pressed in the middle of a drag. -/
def Tidy : Bool → List Event → Prop
  | _, [] => True
  | held, ev :: evs => (held = true → ∀ k, ev = .key k → ¬ ModeKey k) ∧ Tidy (holdAfter held ev) evs

/-- The grid map handed to the search shows the image: black cells are occupied, all others free. -/
def Shows (e : Ed) : Prop := ∀ x y, x < e.s.w → y < e.s.h →
  e.map.isFree ⟨x, y⟩ = .ok (decide (e.s.img y x ≠ 0)) ∧ e.map.isOccupied ⟨x, y⟩ = .ok (decide (e.s.img y x = 0))

/-- The two files contain the image, the start and the goal of the editor. -/
def OnDisk (e : Ed) : Prop := e.disk.ppm = some (e.s.w, e.s.h, e.s.img) ∧ ∃ y, e.disk.yaml = some y ∧ y.res = e.s.res ∧
  y.start = e.s.start ∧ y.goal = e.s.goal

/-- A press at `p`, movements and a release at `q`. -/
def gesture (left : Bool) (p : Int × Int) (moves : List (Int × Int)) (q : Int × Int) : List Event :=
  .mouse (if left then .ldown else .rdown) p.1 p.2 :: (moves.map (fun r => .mouse .move r.1 r.2) ++
    [.mouse (if left then .lup else .rup) q.1 q.2])

/-- A map generator that always finishes. -/
def Finishes (g : Gen) : Prop := ∀ w img s t, ∃ r, g w img s t = .ok r

end PathPlanning.Editor.Spec
