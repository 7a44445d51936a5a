import Verif.Props.LegacyAStar

/-!
# The stand-alone A* planner: independence of earlier searches (C24), the stale-size defect
-/

namespace PathPlanning.Legacy

open Spec

set_option linter.unusedSectionVars false

variable {F K : Type} [Field K] [LinearOrder K] [IsStrictOrderedRing K] [FloorRing K]

/-- Two node lists that differ only in memory the search never reads: uninitialised nodes and the
list of nodes to reset. -/
structure Sim (o o' : OL F) : Prop where
  w : o.width = o'.width
  c : o.count = o'.count
  opn : o.opn = o'.opn
  init : ∀ i, (o.arr i).init = (o'.arr i).init
  node : ∀ i, (o.arr i).init = true → o.arr i = o'.arr i
  mem : ∀ i ∈ o.opn, (o.arr i).init = true

theorem takeWhile_congr_mem {α : Type} {l : List α} {p q : α → Bool} (h : ∀ a ∈ l, p a = q a) :
    l.takeWhile p = l.takeWhile q := by
  induction l with
  | nil => rfl
  | cons a l ih =>
    rw [List.takeWhile_cons, List.takeWhile_cons, h a (by simp),
      ih fun b hb => h b (by simp [hb])]

theorem Sim.lowerBound {A : Arith F} {o o' : OL F} (h : Sim o o') {i : Nat}
    (hi : (o.arr i).init = true) : o.lowerBound A i = o'.lowerBound A i := by
  unfold OL.lowerBound
  rw [← h.opn]
  congr 1
  apply takeWhile_congr_mem
  intro j hj
  unfold OL.key
  rw [h.node j (h.mem j hj), h.node i hi]

theorem Sim.insertNode {A : Arith F} {o o' : OL F} (h : Sim o o') {i : Nat}
    (hi : (o.arr i).init = true) : Sim (o.insertNode A i) (o'.insertNode A i) := by
  refine ⟨h.w, h.c, ?_, h.init, h.node, ?_⟩
  · unfold OL.insertNode
    simp only
    rw [h.lowerBound hi, h.opn]
  · intro j hj
    rcases (mem_insert _ _ _ _).1 hj with rfl | hj
    · exact hi
    · exact h.mem j hj

theorem Sim.setNode {o o' : OL F} (h : Sim o o') (i : Nat) (n : Node F) (hn : n.init = true) :
    Sim (o.setNode i n) (o'.setNode i n) := by
  refine ⟨h.w, h.c, h.opn, ?_, ?_, ?_⟩
  · intro j; simp only [OL.setNode]; split
    · rfl
    · exact h.init j
  · intro j hj; simp only [OL.setNode] at hj ⊢; split
    · rfl
    · rename_i hji; rw [if_neg hji] at hj; exact h.node j hj
  · intro j hj; simp only [OL.setNode]; split
    · exact hn
    · exact h.mem j hj

theorem Sim.eraseNode {A : Arith F} {o o' : OL F} (h : Sim o o') {i : Nat}
    (hi : (o.arr i).init = true) :
    (∃ a b, o.eraseNode A i = .ok a ∧ o'.eraseNode A i = .ok b ∧ Sim a b ∧ a.arr = o.arr ∧
      b.arr = o'.arr) ∨ (o.eraseNode A i = .ub ∧ o'.eraseNode A i = .ub) := by
  unfold OL.eraseNode
  simp only
  rw [← h.lowerBound hi, ← h.opn]
  split
  · left
    refine ⟨_, _, rfl, rfl, ⟨h.w, h.c, rfl, h.init, h.node, ?_⟩, rfl, rfl⟩
    intro j hj
    apply h.mem j
    rcases List.mem_append.1 hj with hj | hj
    · exact List.mem_of_mem_take hj
    · exact List.mem_of_mem_drop (List.mem_of_mem_erase hj)
  · right; exact ⟨rfl, rfl⟩

/-- Results related by a relation on their values, or the same failure. -/
def ResRel {α β : Type} (R : α → β → Prop) : CRes α → CRes β → Prop
  | .ok a, .ok b => R a b
  | .throw e, .throw e' => e = e'
  | .ub, .ub => True
  | _, _ => False

theorem ResRel.bind {α β γ δ : Type} {R : α → β → Prop} {S : γ → δ → Prop} {x : CRes α}
    {y : CRes β} {f : α → CRes γ} {g : β → CRes δ} (h : ResRel R x y)
    (hf : ∀ a b, R a b → ResRel S (f a) (g b)) : ResRel S (x >>= f) (y >>= g) := by
  cases x <;> cases y <;> simp_all [ResRel]

theorem Sim.addNode {A : Arith F} {o o' : OL F} (h : Sim o o') (p : WP) (d pr : F)
    (par : Option Nat) :
    ResRel (fun a b => Sim a b ∧ ∀ i, (o.arr i).init = true → (a.arr i).init = true)
      (o.addNode A p d pr par) (o'.addNode A p d pr par) := by
  unfold OL.addNode
  simp only
  rw [← h.w, ← h.c]
  split
  · exact ⟨h, fun _ hi => hi⟩
  · generalize (p.1 + p.2 * o.width).toNat = i
    rw [← h.init i]
    by_cases hinit : (o.arr i).init = false
    · rw [if_pos hinit, if_pos hinit]
      have hs := h.setNode i ⟨p, d, pr, par, false, true⟩ rfl
      refine ⟨Sim.insertNode (o := { (o.setNode i ⟨p, d, pr, par, false, true⟩) with
        used := o.used ++ [i] }) (o' := { (o'.setNode i ⟨p, d, pr, par, false, true⟩) with
        used := o'.used ++ [i] }) ⟨hs.w, hs.c, hs.opn, hs.init, hs.node, hs.mem⟩
        (by simp [OL.setNode]), ?_⟩
      intro j hj
      simp only [OL.insertNode, OL.setNode]
      split
      · rfl
      · exact hj
    · rw [if_neg hinit, if_neg hinit]
      simp only [Bool.not_eq_false] at hinit
      have hk : o.key A i = o'.key A i := by unfold OL.key; rw [h.node i hinit]
      rw [← h.node i hinit, ← hk]
      split
      · exact ⟨h, fun _ hi => hi⟩
      · rcases h.eraseNode (A := A) hinit with ⟨a, b, e1, e2, e3, e4, e5⟩ | ⟨e1, e2⟩
        · rw [e1, e2]
          simp only [CRes.ok_bind]
          rw [e4, e5, ← h.node i hinit]
          have hs := e3.setNode i { o.arr i with dist := d, parent := par } (by simpa using hinit)
          refine ⟨hs.insertNode (by simp [OL.setNode, hinit]), ?_⟩
          intro j hj
          simp only [OL.insertNode, OL.setNode]
          split
          · exact hinit
          · rw [e4]; exact hj
        · rw [e1, e2]; trivial

theorem Sim.getFirst {o o' : OL F} (h : Sim o o') :
    Sim o.getFirst.1 o'.getFirst.1 ∧ o.getFirst.2 = o'.getFirst.2 ∧
    (∀ i, (o.arr i).init = true → (o.getFirst.1.arr i).init = true) ∧
    (∀ i, o.getFirst.2 = some i → (o.getFirst.1.arr i).init = true) := by
  unfold OL.getFirst
  rw [← h.opn]
  cases hopn : o.opn with
  | nil => exact ⟨h, rfl, fun _ hi => hi, by simp⟩
  | cons i rest =>
    have hi : (o.arr i).init = true := h.mem i (by rw [hopn]; simp)
    simp only
    rw [← h.node i hi]
    have hs := h.setNode i { o.arr i with visited := true } hi
    refine ⟨⟨hs.w, hs.c, rfl, hs.init, hs.node, ?_⟩, trivial, ?_, ?_⟩
    · intro j hj
      exact hs.mem j (by simp only [OL.setNode]; rw [hopn]; exact List.mem_cons_of_mem _ hj)
    · intro j hj
      simp only [OL.setNode]
      split
      · exact hi
      · exact hj
    · intro j hj
      simp only [Option.some.injEq] at hj
      subst hj
      simpa [OL.setNode] using hi

theorem Sim.expand {A : Arith F} {m : GridMap K} (start : WP) (p : Nat) (nbs : List (WP × Bool)) :
    ∀ {o o' : OL F}, Sim o o' → (o.arr p).init = true →
      ResRel (fun a b => Sim a b ∧ ∀ i, (o.arr i).init = true → (a.arr i).init = true)
        (Legacy.expand A m start p nbs o) (Legacy.expand A m start p nbs o') := by
  induction nbs with
  | nil => intro o o' h _; exact ⟨h, fun _ hi => hi⟩
  | cons nb nbs ih =>
    intro o o' h hp
    unfold Legacy.expand
    simp only
    rw [← h.node p hp]
    generalize isFreeWay m ((o.arr p).pos.1 + nb.1.1, (o.arr p).pos.2 + nb.1.2) = fr
    cases fr with
    | ub => trivial
    | throw e => rfl
    | ok b =>
      simp only [CRes.ok_bind]
      cases b
      · exact ih h hp
      · simp only [if_true]
        refine ResRel.bind (h.addNode _ _ _ _) ?_
        rintro a b ⟨hs, hg⟩
        have := ih hs (hg p hp)
        revert this
        generalize Legacy.expand A m start p nbs a = x
        generalize Legacy.expand A m start p nbs b = y
        cases x <;> cases y <;> simp only [ResRel, imp_self]
        rintro ⟨s1, s2⟩
        exact ⟨s1, fun i hi => s2 i (hg i hi)⟩

theorem Sim.searchLoop {A : Arith F} {m : GridMap K} (start : WP) (fuel : Nat) :
    ∀ {o o' : OL F} (p : Nat), Sim o o' → (o.arr p).init = true →
      ResRel (fun a b => (a = none ∧ b = none) ∨ ∃ x y r, a = some (x, r) ∧ b = some (y, r) ∧
        Sim x y)
        (Legacy.searchLoop A m start fuel o p) (Legacy.searchLoop A m start fuel o' p) := by
  induction fuel with
  | zero => intro o o' p h hp; exact Or.inl ⟨rfl, rfl⟩
  | succ fuel ih =>
    intro o o' p h hp
    unfold Legacy.searchLoop
    rw [← h.node p hp]
    split
    · refine ResRel.bind (Sim.expand start p neighbors h hp) ?_
      rintro a b ⟨hs, hg⟩
      obtain ⟨g1, g2, -, g4⟩ := hs.getFirst
      revert g1 g2 g4
      generalize a.getFirst = x
      generalize b.getFirst = y
      obtain ⟨x1, x2⟩ := x
      obtain ⟨y1, y2⟩ := y
      rintro g1 g2 g4
      simp only at g1 g2 g4
      subst g2
      cases x2 with
      | none => exact Or.inr ⟨_, _, _, rfl, rfl, g1⟩
      | some q => exact ih q g1 (g4 q rfl)
    · exact Or.inr ⟨_, _, _, rfl, rfl, h⟩

/-- Along a chain of initialised parents the walk reads the same nodes. -/
theorem follow_congr {m : GridMap K} {o o' : OL F} {goal : WP} (cl : List Nat)
    (h : ClOk m o goal cl) (heq : ∀ i ∈ cl, o.arr i = o'.arr i) :
    ∀ (fuel : Nat) (s : Nat), s ∈ cl → follow o fuel (some s) = follow o' fuel (some s) := by
  induction cl with
  | nil => intro _ s hs; simp at hs
  | cons a rest ih =>
    have ih := ih h.2 fun i hi => heq i (by simp [hi])
    intro fuel s hs
    rcases List.mem_cons.1 hs with rfl | hs
    · cases fuel with
      | zero => rfl
      | succ n =>
        unfold follow
        rw [← heq s (by simp)]
        rcases h.1 with ⟨-, h2⟩ | ⟨q, hq, h1, -⟩
        · rw [h2]; simp [follow]
        · rw [h1, ih n q hq]
    · exact ih fuel s hs

theorem prepare_sim {m : GridMap K} {o o' : OL F} (h : Idle m o) (h' : Idle m o') :
    Sim o.prepare o'.prepare := by
  have key : ∀ (o : OL F), Idle m o → ∀ i, (o.prepare.arr i).init = false := by
    intro o h i
    show (if i ∈ o.used then (o.arr i).reset else o.arr i).init = false
    split
    · rfl
    · rename_i hi
      cases e : (o.arr i).init
      · rfl
      · exact absurd (h.used i e) hi
  refine ⟨by show o.width = o'.width; rw [h.w, h'.w], by show o.count = o'.count; rw [h.c, h'.c], rfl,
    fun i => by rw [key o h, key o' h'], ?_, ?_⟩
  · intro i hi; simp [key o h] at hi
  · intro i hi; simp [OL.prepare] at hi

/-- Two idle planners of the same size give the same result. -/
theorem search_congr {A : Arith F} {m : GridMap K} (ok : MapOk m) {o o' : OL F} (h : Idle m o)
    (h' : Idle m o') {start goal : WP} (hg : Cell m goal) {fuel : Nat}
    (hf : m.width * m.height < fuel) (r r' : Plan F)
    (e : search A m fuel o start goal = .ok (some r))
    (e' : search A m fuel o' start goal = .ok (some r')) :
    r.found = r'.found ∧ r.path = r'.path := by
  have hI := prepare_inv (A := A) goal h
  obtain ⟨o1, a1, a2, a3, a4⟩ := addNode_inv hI goal A.zero (A.pred start goal) none hg
    (Or.inl ⟨rfl, rfl⟩)
  have hsim := (prepare_sim h h').addNode (A := A) goal A.zero (A.pred start goal) none
  unfold search at e e'
  rw [a1] at e hsim
  simp only [CRes.ok_bind] at e
  cases hb : o'.prepare.addNode A goal A.zero (A.pred start goal) none with
  | ub => rw [hb] at hsim; exact hsim.elim
  | throw s => rw [hb] at hsim; exact hsim.elim
  | ok o1' =>
    rw [hb] at hsim e'
    simp only [CRes.ok_bind] at e'
    obtain ⟨g1, g2, -, g4⟩ := hsim.1.getFirst
    rcases getFirst_inv a2 with ⟨e1, e2⟩ | ⟨i, o2, b1, b2, b3, b4, -⟩
    · rw [e2] at e; simp at e
    · rw [b1] at e g1 g2 g4
      simp only at e g1 g2 g4
      have b1' : o1'.getFirst = (o1'.getFirst.1, some i) := by rw [g2]
      rw [b1'] at e'
      simp only at e'
      have hi : idx m goal = i := by
        by_contra hne
        have hin := b2
        rw [a2.opn_iff] at hin
        have hposi := a2.pos i hin.1
        rcases a2.parO i b2 with ⟨p1, -⟩ | ⟨q, hq, -⟩
        · rw [p1] at hposi; exact hne hposi.2
        · simp at hq
      obtain ⟨o3, rr, cl', c1, c2, c3, c4⟩ := searchLoop_inv (start := start) ok fuel o2 i [] b3
        (by simp) (by simpa using hf) (by simp [hi])
      have hl := Sim.searchLoop (A := A) (m := m) start fuel i g1 (g4 i rfl)
      rw [c1] at e hl
      simp only [CRes.ok_bind] at e
      cases hc : Legacy.searchLoop A m start fuel o1'.getFirst.1 i with
      | ub => rw [hc] at hl; exact hl.elim
      | throw s => rw [hc] at hl; exact hl.elim
      | ok q =>
        rw [hc] at hl e'
        simp only [CRes.ok_bind] at e'
        rcases hl with ⟨hl, -⟩ | ⟨x, y, r2, f1, f2, f3⟩
        · simp at hl
        · simp only [Option.some.injEq, Prod.mk.injEq] at f1
          obtain ⟨rfl, rfl⟩ := f1
          subst f2
          cases rr with
          | none =>
            simp only [CRes.ok.injEq, Option.some.injEq] at e e'
            subst e; subst e'
            exact ⟨rfl, rfl⟩
          | some s =>
            simp only at e e' c4
            have hfw := follow_congr (o' := y) cl' c2.parC
              (fun j hj => f3.node j ((c2.cl_iff j).1 hj).1) fuel s c4.1
            rw [← hfw] at e'
            cases hp : follow o3 fuel (some s) with
            | none => rw [hp] at e; simp at e
            | some path =>
              rw [hp] at e e'
              simp only [Option.map_some, CRes.ok.injEq, Option.some.injEq] at e e'
              subst e; subst e'
              exact ⟨rfl, rfl⟩

/-- **C24.** Two planner objects with the same current map — whatever searches, map edits and map
changes each went through, and whatever its uninitialised memory contained — return the same answer
and the same path. -/
theorem planPath_history_independent {A : Arith F} {m : GridMap K} {o o' : OL F}
    (h : AStarObj A m o) (h' : AStarObj A m o') (start goal : WP) {fuel : Nat}
    (hf : m.width * m.height < fuel) :
    ∃ r r', planPath A m fuel o start goal = .ok (some r) ∧
      planPath A m fuel o' start goal = .ok (some r') ∧ r.found = r'.found ∧ r.path = r'.path := by
  obtain ⟨r, e1, -, -⟩ := planPath_spec h start goal hf
  obtain ⟨r', e1', -, -⟩ := planPath_spec h' start goal hf
  refine ⟨r, r', e1, e1', ?_⟩
  obtain ⟨ok, hid⟩ := h.idle
  obtain ⟨-, hid'⟩ := h'.idle
  unfold planPath at e1 e1'
  split at e1
  · rename_i hs
    rw [if_pos hs] at e1'
    simp only [CRes.ok.injEq, Option.some.injEq] at e1 e1'
    subst e1; subst e1'; exact ⟨rfl, rfl⟩
  · rename_i hs
    rw [if_neg hs] at e1'
    split at e1
    · rename_i hg
      rw [if_pos hg] at e1'
      simp only [CRes.ok.injEq, Option.some.injEq] at e1 e1'
      subst e1; subst e1'; exact ⟨rfl, rfl⟩
    · rename_i hg
      rw [if_neg hg] at e1'
      simp only [Bool.not_eq_true, Bool.not_eq_false'] at hg
      exact search_congr ok hid hid' ((isInMap_iff ok goal).1 hg) hf r r' e1 e1'

/-! ## Concrete cases -/

/-- Exact arithmetic over ℚ with `99/70` for `sqrt 2` and the larger coordinate difference as
prediction (only for the examples). -/
def ratArith : Arith ℚ where
  zero := 0
  addStep d diag := d + if diag then 99 / 70 else 1
  pred s p := ((max (p.1 - s.1).natAbs (p.2 - s.2).natAbs : Nat) : ℚ)
  value d p := truncC (d + p)
  worse d p v := decide ((v : ℚ) < d + p)

/-- A 4×3 map with a wall in column 1 that leaves row 2 open. -/
def wallMap : GridMap ℚ :=
  { GridMap.mk' 4 3 (1 : ℚ) with data := [0, 255, 0, 0,  0, 255, 0, 0,  0, 0, 0, 0] }

/-- The same map with the wall closed. -/
def closedMap : GridMap ℚ :=
  { GridMap.mk' 4 3 (1 : ℚ) with data := [0, 255, 0, 0,  0, 255, 0, 0,  0, 255, 0, 0] }

theorem wallMap_ok : MapOk wallMap := ⟨⟨by decide, by decide, by decide, by decide⟩, by decide⟩
theorem closedMap_ok : MapOk closedMap := ⟨⟨by decide, by decide, by decide, by decide⟩, by decide⟩

/-- Arbitrary memory content for the examples. -/
def someMem : Nat → Node ℚ := fun i => ⟨(7, i), 3, 5, some i, true, true⟩

/-- The observable part of a result: return value and path. -/
def outcome (x : CRes (Option (Plan F))) : CRes (Option (Bool × List WP)) :=
  x >>= fun r => .ok (r.map fun p => (p.found, p.path))

/-- Two searches in a row on the same object: the observable result of the second. -/
def secondOutcome (A : Arith F) (m1 m2 : GridMap K) (o : OL F) (s1 g1 s2 g2 : WP) :
    CRes (Option (Bool × List WP)) :=
  planPath A m1 13 o s1 g1 >>= fun r =>
    match r with
    | none => .ok none
    | some p => outcome (planPath A m2 13 p.ol s2 g2)

/-- Non-vacuity of C22-C24: on the open map the planner goes round the wall, on the closed one it
fails, and after a failed search (or another one) it still finds the same path. -/
example :
    outcome (planPath ratArith wallMap 13 (OL.create 4 3 someMem) (0, 0) (3, 0)) =
      .ok (some (true, [(0, 0), (0, 1), (1, 2), (2, 1), (3, 0)])) ∧
    outcome (planPath ratArith closedMap 13 (OL.create 4 3 someMem) (0, 0) (3, 0)) =
      .ok (some (false, [])) ∧
    secondOutcome ratArith closedMap wallMap (OL.create 4 3 someMem) (0, 0) (3, 0) (0, 0) (3, 0) =
      .ok (some (true, [(0, 0), (0, 1), (1, 2), (2, 1), (3, 0)])) ∧
    secondOutcome ratArith wallMap wallMap (OL.create 4 3 someMem) (3, 2) (0, 1) (0, 0) (3, 0) =
      .ok (some (true, [(0, 0), (0, 1), (1, 2), (2, 1), (3, 0)])) := by
  refine ⟨?_, ?_, ?_, ?_⟩ <;> decide +kernel

/-- The objects of the example are objects in the sense of the theorems. -/
example : AStarObj ratArith wallMap (OL.create 4 3 someMem) := AStarObj.create wallMap someMem wallMap_ok

/-- **Stale size defect.** `setNewMap` compares the new map's size with the *current* size of the
object `mMap` points to.  If that object was resized in place (`SimpleGridMap2d::set(data,w,h)`) and
passed again, the sizes agree trivially, the node list keeps its old size, and a later search for a
cell beyond it dereferences a null pointer. -/
theorem setNewMap_same_object_stale (m : GridMap K) (o : OL F) (mem : Nat → Node F) :
    setNewMap m m o mem = o := by
  simp [setNewMap]

/-- The consequence on a concrete map: a planner created for a 1×1 map whose map object is then
resized in place to a free 2×2 map; planning from (0,0) to (1,1) is undefined behaviour. -/
theorem resized_map_null_dereference :
    outcome (planPath ratArith (GridMap.mk' 2 2 (1 : ℚ)) 5
      (setNewMap (GridMap.mk' 2 2 (1 : ℚ)) (GridMap.mk' 2 2 (1 : ℚ)) (OL.create 1 1 someMem) someMem)
      (0, 0) (1, 1)) = .ub := by
  decide +kernel

end PathPlanning.Legacy
