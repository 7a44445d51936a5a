import Verif.Model.ReedsShepp
import Verif.Model.Schedule

/-!
# Model of the analytic expansion

Source: `/repo/include/cslibs_path_planning/generic/ReedsSheppExpansion.hpp`
(`ReedsSheppExpansion<N, exp_forward, exp_backward>`). The throttling is `expStep`
(`Model/Schedule.lean`).

Simplifications: the `float` constants of `find` are exact numbers; the loop reading the curve has fuel
(`none` = not finished); a node is what the expansion reads of it.
-/

noncomputable section

namespace PathPlanning.RSExp

open PathPlanning.RS

/-- What `expand` reads of a search node: pose, `h`, `forward` (ReedsSheppExpansion.hpp:42, 59). -/
structure Node where
  pose : Pose
  h : ℝ
  forward : Bool

/-- Fields of the singleton (ReedsSheppExpansion.hpp:140-150). -/
structure St where
  gen : Gen
  genB : Gen
  poses : List Pose
  thr : ExpSt ℝ
  forward : Bool

/-- A generator after `parse` of some patterns and `set_max_curve_arc(M_PI)`
(ReedsSheppExpansion.hpp:22-27, 31-36). -/
def genFor (pats : List String) : CRes Gen := do
  let g ← pats.foldlM (fun g s => do let r ← Gen.parse g s.toList; pure r.2) ({} : Gen)
  pure { g with maxArc := some Real.pi }

/-- Constructor (ReedsSheppExpansion.hpp:15-38); `min_cost` and `forward` are not initialised. -/
def St.new (N : Int) (ef eb : Bool) (junk : ℝ) (junkF : Bool) : CRes St := do
  let g ← if ef then genFor ["LSL", "LSR", "RSL", "RSR"] else pure {}
  let b ← if eb then genFor ["|LSL", "|LSR", "|RSL", "|RSR"] else pure {}
  pure ⟨g, b, [], expInit N junk, junkF⟩

/-- The settings made at the start of `find` (ReedsSheppExpansion.hpp:88-95). -/
def prepare (g : Gen) : Gen :=
  { g with radius := 13 / 10, maxWp := 15 / 100, costB := 2, costC := 13 / 10 }

/-- `find` on the forward generator (ReedsSheppExpansion.hpp:86-113). -/
def St.find (clamp : ℝ → ℝ) (fuel : Nat) (st : St) (start goal : Pose) (map : MapIf) :
    CRes (Option (Bool × St)) := do
  let g := prepare st.gen
  let r ← g.findPath clamp start goal map false
  match r.2 with
  | none => pure (some (false, { st with gen := r.1 }))
  | some k =>
    let ps ← (k.reset (g.env clamp map false)).collect (g.env clamp map false) fuel
    pure (ps.map fun ps => (k.isValid, { st with gen := r.1, poses := ps }))

/-- `expand` / `canExpand` (ReedsSheppExpansion.hpp:41-82, 132-136). -/
def St.expand (clamp : ℝ → ℝ) (fuel : Nat) (N : Int) (ef eb : Bool) (st : St) (start goal : Node)
    (map : MapIf) : CRes (Option (Bool × St)) :=
  let st := { st with forward := start.forward }
  if !ef && start.forward then .ok (some (false, st))
  else if !eb && !start.forward then .ok (some (false, st))
  else do
    let (attempt, thr) ← expStep N st.thr start.h
    let st := { st with thr := thr }
    if attempt then
      if start.forward then st.find clamp fuel start.pose goal.pose map
      else pure (some (false, st))
    else pure (some (false, st))

/-- `get` / `getPath` (ReedsSheppExpansion.hpp:116-124, 138-142): the poses with the direction flag. -/
def St.get (st : St) : List (Pose × Bool) := st.poses.map fun p => (p, st.forward)

end PathPlanning.RSExp
