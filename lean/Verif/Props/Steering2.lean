import Verif.Props.Steering

/-!
# C52, C64: the steering neighbourhood during a search; `DynamicSteeringNeighborhood`; concrete cases
-/

noncomputable section

namespace PathPlanning

open Spec

/-! ### The node store during a search -/

section store
variable {N A : Type} [DecidableEq N]

theorem tryNeighbor_ind (map : SMap N) (proc : A → N → N → ℝ → A × Bool) (ref : N) (res : Option (ℝ × SNode))
    (Q : SStore N → Prop) (a : A × SStore N) (h0 : Q a.2)
    (h : ∀ c s n, res = some (c, s) → (proc a.1 ref n c).2 = true → Q (a.2.relabel n ref s)) :
    Q (tryNeighbor map proc ref res a).2 := by
  unfold tryNeighbor
  cases res with
  | none => exact h0
  | some r =>
    obtain ⟨c, s⟩ := r
    simp only []
    split_ifs with h1 h2 h3
    · exact h0
    · cases hl : map.lookup s.x s.y s.theta s.steer s.forward with
      | none => exact h0
      | some n =>
        simp only []
        split_ifs with h4
        · exact h c s n rfl h4
        · exact h0
    · exact h0
    · exact h0

/-- A search with `SteeringNeighborhood`: any sequence of expansions, with any map, any bookkeeping by the search
algorithm and any content of the uninitialised variable. -/
def expandAll (clamp : ℝ → ℝ) (P : SteerP) (so : SOpts) (garbage : Nat × Nat → Int) (map : SMap N)
    (proc : A → N → N → ℝ → A × Bool) (refs : List N) (a : A × SStore N) : A × SStore N :=
  refs.foldl (fun a ref => iterateFree clamp P so garbage map proc ref a) a

theorem foldl_inv {α β : Type} (f : β → α → β) (Q : β → Prop) (l : List α) (b : β) (h0 : Q b)
    (h : ∀ b x, x ∈ l → Q b → Q (f b x)) : Q (l.foldl f b) := by
  induction l generalizing b with
  | nil => exact h0
  | cons x xs ih =>
    exact ih (f b x) (h b x (by simp) h0) (fun b y hy hb => h b y (by simp [hy]) hb)

/-- **In every state of every search** the steering angle of every node is within the limit, whatever the map, the open
list and the order of expansion. -/
theorem expandAll_steer_bounded (clamp : ℝ → ℝ) (P : SteerP) (hm : 0 ≤ P.maxSteer) (so : SOpts)
    (garbage : Nat × Nat → Int) (map : SMap N) (proc : A → N → N → ℝ → A × Bool) (refs : List N) (a : A × SStore N)
    (h0 : ∀ n, |(a.2.node n).steer| ≤ P.maxSteer) (n : N) :
    |((expandAll clamp P so garbage map proc refs a).2.node n).steer| ≤ P.maxSteer := by
  have : ∀ n, |((expandAll clamp P so garbage map proc refs a).2.node n).steer| ≤ P.maxSteer := by
    unfold expandAll
    apply foldl_inv _ (fun b : A × SStore N => ∀ n, |(b.2.node n).steer| ≤ P.maxSteer) _ _ h0
    intro b ref _ hb
    unfold iterateFree
    apply foldl_inv _ (fun b : A × SStore N => ∀ n, |(b.2.node n).steer| ≤ P.maxSteer) _ _ hb
    intro b m _ hb
    apply tryNeighbor_ind map proc ref _ (fun st => ∀ n, |(st.node n).steer| ≤ P.maxSteer) _ hb
    intro c s n hres _ k
    unfold SStore.relabel
    simp only []
    split_ifs
    · exact advance_steer_bounded hm hres
    · exact hb k
  exact this n

/-- The nodes from `n` back to a node without predecessor, newest first: what `backtrack` returns (reversed). -/
inductive PathOf (st : SStore N) : N → List SNode → Prop
  | root {n : N} (h : st.prev n = none) : PathOf st n [st.node n]
  | step {n p : N} {l : List SNode} (h : st.prev n = some p) (hp : PathOf st p l) : PathOf st n (st.node n :: l)

/-- Every labelled node is a successor of its predecessor's current fields, and predecessors are expanded. -/
def TreeOk (clamp : ℝ → ℝ) (P : SteerP) (so : SOpts) (E : N → Prop) (st : SStore N) : Prop :=
  (∀ n p, st.prev n = some p → E p ∧ ∃ g i k c, i < P.size ∧ k ≤ P.steerSteps ∧
    advance clamp P so g (st.node p) (st.preds p (P.straightDirSwitch - 1).toNat) i k = some (c, st.node n)) ∧
  (∀ n, st.prev n = none → (st.node n).depth = 0 ∧ (st.node n).custom = 0 ∧ |(st.node n).steer| ≤ P.maxSteer)

theorem preds_relabel (E : N → Prop) (st : SStore N) (hE : ∀ n p, st.prev n = some p → E p) (n ref : N) (s : SNode)
    (hn : ¬ E n) (p : N) (hp : E p) (k : Nat) : (st.relabel n ref s).preds p k = st.preds p k := by
  induction k generalizing p with
  | zero => rfl
  | succ k ih =>
    have hpn : p ≠ n := fun e => hn (e ▸ hp)
    have e1 : (st.relabel n ref s).prev p = st.prev p := by simp [SStore.relabel, hpn]
    unfold SStore.preds
    rw [e1]
    cases hq : st.prev p with
    | none => rfl
    | some q =>
      have hEq := hE p q hq
      have hqn : q ≠ n := fun e => hn (e ▸ hEq)
      simp only []
      rw [ih q hEq]
      simp [SStore.relabel, hqn]

theorem moveList_mem {lo hi steps : Nat} {m : Nat × Nat} (h : m ∈ moveList lo hi steps) :
    lo ≤ m.1 ∧ m.1 < hi ∧ m.2 ≤ steps := by
  unfold moveList at h
  obtain ⟨i, hi', hm⟩ := List.mem_flatMap.1 h
  obtain ⟨s, hs, rfl⟩ := List.mem_map.1 hm
  rw [List.mem_range'_1] at hi'
  rw [List.mem_range] at hs
  exact ⟨hi'.1, by simp only []; omega, by simp only []; omega⟩

theorem moveList_complete {lo hi steps i s : Nat} (h1 : lo ≤ i) (h2 : i < hi) (h3 : s ≤ steps) :
    (i, s) ∈ moveList lo hi steps := by
  unfold moveList
  refine List.mem_flatMap.2 ⟨i, ?_, List.mem_map.2 ⟨s, ?_, rfl⟩⟩
  · rw [List.mem_range'_1]; omega
  · rw [List.mem_range]; omega

/-- The bookkeeping of a search algorithm which does not reopen closed nodes: `closed` is the set of closed nodes,
`pop` closes the node taken from the open list, `proc` (= `processNeighbor`) accepts no closed node and keeps closed
nodes closed.  This is what the A* of the library does for a consistent heuristic and non-negative costs. -/
structure NoReopen (pop : A → N → A) (proc : A → N → N → ℝ → A × Bool) (closed : A → N → Prop) : Prop where
  pop_closes : ∀ a ref, closed (pop a ref) ref
  pop_keeps : ∀ a ref n, closed a n → closed (pop a ref) n
  proc_keeps : ∀ a ref m c n, closed a n → closed (proc a ref m c).1 n
  proc_refuses : ∀ a ref n c, (proc a ref n c).2 = true → ¬ closed a n

omit [DecidableEq N] in
theorem TreeOk.mono {clamp : ℝ → ℝ} {P : SteerP} {so : SOpts} {E E' : N → Prop} {st : SStore N} (hE : ∀ n, E n → E' n)
    (h : TreeOk clamp P so E st) : TreeOk clamp P so E' st := by
  refine ⟨fun n p e => ?_, h.2⟩
  obtain ⟨x, y⟩ := h.1 n p e
  exact ⟨hE _ x, y⟩

/-- Relabelling a node that is not closed keeps the tree consistent. -/
theorem relabel_treeOk (clamp : ℝ → ℝ) (P : SteerP) (so : SOpts) (E : N → Prop) (ref n : N) (hr : E ref) (hnE : ¬ E n)
    (st : SStore N) (hb : TreeOk clamp P so E st) (g : Int) (i k : Nat) (c : ℝ) (s : SNode) (hi : i < P.size)
    (hk : k ≤ P.steerSteps)
    (hres : advance clamp P so g (st.node ref) (st.preds ref (P.straightDirSwitch - 1).toNat) i k = some (c, s)) :
    TreeOk clamp P so E (st.relabel n ref s) := by
  have hE : ∀ n p, st.prev n = some p → E p := fun n p e => (hb.1 n p e).1
  have hpreds := fun p hp k => preds_relabel E st hE n ref s hnE p hp k
  have hnode : ∀ p, E p → (st.relabel n ref s).node p = st.node p := by
    intro p hp
    have : p ≠ n := fun e => hnE (e ▸ hp)
    simp [SStore.relabel, this]
  constructor
  · intro m' p hpv
    by_cases hmn : m' = n
    · subst hmn
      have : p = ref := by simpa [SStore.relabel] using hpv.symm
      subst this
      refine ⟨hr, g, i, k, c, hi, hk, ?_⟩
      rw [hpreds p hr, hnode p hr, hres]
      simp [SStore.relabel]
    · have hpv' : st.prev m' = some p := by simpa [SStore.relabel, hmn] using hpv
      obtain ⟨hEp, g, i, k, c', h1, h2, h3⟩ := hb.1 m' p hpv'
      refine ⟨hEp, g, i, k, c', h1, h2, ?_⟩
      rw [hpreds p hEp, hnode p hEp, h3]
      simp [SStore.relabel, hmn]
  · intro m' hpv
    by_cases hmn : m' = n
    · subst hmn; simp [SStore.relabel] at hpv
    · have : (st.relabel n ref s).node m' = st.node m' := by simp [SStore.relabel, hmn]
      rw [this]
      exact hb.2 m' (by simpa [SStore.relabel, hmn] using hpv)

/-- One expansion keeps the tree consistent if the algorithm relabels no closed node. -/
theorem iterateFree_treeOk (clamp : ℝ → ℝ) (P : SteerP) (so : SOpts) (garbage : Nat × Nat → Int) (map : SMap N)
    (pop : A → N → A) (proc : A → N → N → ℝ → A × Bool) (closed : A → N → Prop) (hno : NoReopen pop proc closed)
    (ref : N) (a : A × SStore N) (hr : closed a.1 ref) (h : TreeOk clamp P so (closed a.1) a.2) :
    TreeOk clamp P so (closed (iterateFree clamp P so garbage map proc ref a).1)
      (iterateFree clamp P so garbage map proc ref a).2 := by
  unfold iterateFree
  refine (foldl_inv _ (fun b : A × SStore N => closed b.1 ref ∧ TreeOk clamp P so (closed b.1) b.2) _ _ ⟨hr, h⟩ ?_).2
  intro b m hm hb
  obtain ⟨_, hm2, hm3⟩ := moveList_mem hm
  obtain ⟨hbr, hbt⟩ := hb
  unfold tryNeighbor
  cases hres : advance clamp P so (garbage m) (b.2.node ref) (b.2.preds ref (P.straightDirSwitch - 1).toNat) m.1 m.2 with
  | none => exact ⟨hbr, hbt⟩
  | some r =>
    obtain ⟨c, s⟩ := r
    simp only []
    split_ifs with h1 h2 h3
    · exact ⟨hbr, hbt⟩
    · cases hl : map.lookup s.x s.y s.theta s.steer s.forward with
      | none => exact ⟨hbr, hbt⟩
      | some n =>
        simp only []
        split_ifs with h4
        · refine ⟨hno.proc_keeps _ _ _ _ _ hbr, ?_⟩
          have := relabel_treeOk clamp P so (closed b.1) ref n hbr (hno.proc_refuses _ _ _ _ h4) b.2 hbt (garbage m)
            m.1 m.2 c s hm2 hm3 hres
          exact this.mono (fun k hk => hno.proc_keeps _ _ _ _ _ hk)
        · exact ⟨hno.proc_keeps _ _ _ _ _ hbr, hbt.mono (fun k hk => hno.proc_keeps _ _ _ _ _ hk)⟩
    · exact ⟨hbr, hbt⟩
    · exact ⟨hbr, hbt⟩

/-- A search: the nodes `refs` are taken from the open list one after the other and expanded. -/
def searchRun (clamp : ℝ → ℝ) (P : SteerP) (so : SOpts) (garbage : Nat × Nat → Int) (map : SMap N)
    (pop : A → N → A) (proc : A → N → N → ℝ → A × Bool) (refs : List N) (a : A × SStore N) : A × SStore N :=
  refs.foldl (fun a ref => iterateFree clamp P so garbage map proc ref (pop a.1 ref, a.2)) a

theorem searchRun_treeOk (clamp : ℝ → ℝ) (P : SteerP) (so : SOpts) (garbage : Nat × Nat → Int) (map : SMap N)
    (pop : A → N → A) (proc : A → N → N → ℝ → A × Bool) (closed : A → N → Prop) (hno : NoReopen pop proc closed)
    (refs : List N) (a : A × SStore N)
    (h0 : ∀ n, a.2.prev n = none ∧ (a.2.node n).depth = 0 ∧ (a.2.node n).custom = 0 ∧
      |(a.2.node n).steer| ≤ P.maxSteer) :
    TreeOk clamp P so (closed (searchRun clamp P so garbage map pop proc refs a).1)
      (searchRun clamp P so garbage map pop proc refs a).2 := by
  unfold searchRun
  apply foldl_inv _ (fun b : A × SStore N => TreeOk clamp P so (closed b.1) b.2)
  · refine ⟨fun n p e => ?_, fun n _ => (h0 n).2⟩
    rw [(h0 n).1] at e; exact absurd e (by simp)
  · intro b ref _ hb
    refine iterateFree_treeOk clamp P so garbage map pop proc closed hno ref _ (hno.pop_closes _ _) ?_
    exact hb.mono (fun k hk => hno.pop_keeps _ _ _ hk)

/-- `straightPreds` looks at the first `n` elements only, so `advance` is the same for the truncated and the full list of
predecessors. -/
theorem straightPreds_take (n : Nat) (l : List SNode) : straightPreds n (l.take n) = straightPreds n l := by
  induction n generalizing l with
  | zero => rfl
  | succ n ih =>
    cases l with
    | nil => rfl
    | cons t ts => simp only [List.take_succ_cons, straightPreds, ih]

theorem advance_take (clamp : ℝ → ℝ) (P : SteerP) (so : SOpts) (g : Int) (ref : SNode) (l : List SNode) (i k : Nat) :
    advance clamp P so g ref (l.take (P.straightDirSwitch - 1).toNat) i k = advance clamp P so g ref l i k := by
  unfold advance
  simp only [straightPreds_take]

theorem pathOf_preds {st : SStore N} {n : N} {l : List SNode} (h : PathOf st n l) (k : Nat) :
    st.preds n k = l.tail.take k := by
  induction h generalizing k with
  | root h =>
    cases k with
    | zero => rfl
    | succ k => simp [SStore.preds, h]
  | @step n p l h hp ih =>
    cases k with
    | zero => simp [SStore.preds]
    | succ k =>
      simp only [SStore.preds, h, List.tail_cons]
      rw [ih k]
      cases hp with
      | root h' => simp
      | step h' hp' => simp

/-- **Every path returned by such a search** is a sequence of legal steps: all theorems about `Trace` (steering limit,
direction changes, bicycle motion) hold for it. -/
theorem search_path_trace (clamp : ℝ → ℝ) (P : SteerP) (so : SOpts) (garbage : Nat × Nat → Int) (map : SMap N)
    (pop : A → N → A) (proc : A → N → N → ℝ → A × Bool) (closed : A → N → Prop) (hno : NoReopen pop proc closed)
    (refs : List N) (a : A × SStore N)
    (h0 : ∀ n, a.2.prev n = none ∧ (a.2.node n).depth = 0 ∧ (a.2.node n).custom = 0 ∧
      |(a.2.node n).steer| ≤ P.maxSteer) (n : N) (l : List SNode)
    (hl : PathOf (searchRun clamp P so garbage map pop proc refs a).2 n l) : Trace clamp P so l := by
  have ht := searchRun_treeOk clamp P so garbage map pop proc closed hno refs a h0
  generalize (searchRun clamp P so garbage map pop proc refs a).2 = st at ht hl
  generalize closed (searchRun clamp P so garbage map pop proc refs a).1 = E at ht
  induction hl with
  | root h =>
    obtain ⟨x, y, z⟩ := ht.2 _ h
    exact Trace.start _ x y z
  | @step n p l h hp ih =>
    obtain ⟨_, g, i, k, c, hi, hk, hadv⟩ := ht.1 n p h
    rw [pathOf_preds hp, advance_take] at hadv
    cases hp with
    | root h' => exact Trace.step ih g i k c hi hk (by simpa using hadv)
    | step h' hp' => exact Trace.step ih g i k c hi hk (by simpa using hadv)

/-- An algorithm with the required bookkeeping: the state is the list of closed nodes. -/
theorem noReopen_example : NoReopen (A := List N) (fun a ref => ref :: a) (fun a _ n _ => (a, decide (n ∉ a)))
    (fun a n => n ∈ a) where
  pop_closes a ref := by simp
  pop_keeps a ref n h := by simp [h]
  proc_keeps a ref m c n h := h
  proc_refuses a ref n c h := by simpa using h

end store

/-! ### Concrete cases and findings -/

/-- A vehicle: steps of 1 m, cells of 1 m, wheel base 3 m, at most 30 degrees in steps of 15, forward and backward,
3 straight parts around a direction change. -/
def exP : SteerP := ⟨1, 1, 3, 30, 15, 2, 6, false, 3⟩
def exS : SNode := ⟨0, 0, 0, true, 0, 0, 0⟩
/-- a node in the middle of a search, committed to two more straight steps -/
def exC : SNode := ⟨0, 0, 0, false, 0, 2, 4⟩

/-- From the start node there is a successor to the right, with the wheels turned by 15 degrees. -/
theorem exP_right (clamp : ℝ → ℝ) (so : SOpts) (g : Int) :
    ∃ c s, advance clamp exP so g exS [] 1 1 = some (c, s) ∧ s.steer = -15 ∧ s.forward = true ∧ s.depth = 1 := by
  obtain ⟨c, s, h⟩ := advance_isSome clamp exP so g exS [] 1 1 (-15) rfl (fun _ => rfl) (fun _ => rfl)
    (fun _ e => absurd rfl e)
  obtain ⟨a, _, _, ⟨s0, h0, hs⟩, _, hd, _⟩ := advance_inv h
  refine ⟨c, s, h, ?_, a, hd⟩
  have : s0 = -15 := by
    have : steerSwitch exP.maxSteer (exP.steerDelta * (1 : Nat)) exS.steer 1 1 = some (-15) := rfl
    rw [this] at h0; simpa using h0.symm
  rw [hs, this]; rfl

/-- Finding: a committed node still turns its wheels, although it may not: the successor exists, has turned wheels and a
remaining commitment, so that (`advance_dead_end`) it has no successors itself. -/
theorem committed_node_turns (clamp : ℝ → ℝ) (so : SOpts) (g : Int) (preds : List SNode) :
    ∃ c s, advance clamp exP so g exC preds 4 1 = some (c, s) ∧ s.steer = -15 ∧ s.custom = 1 ∧
      ∀ g' preds' i k, advance clamp exP so g' s preds' i k = none := by
  obtain ⟨c, s, h⟩ := advance_isSome clamp exP so g exC preds 4 1 (-15) rfl (fun _ => rfl) (fun _ => rfl)
    (fun _ e => absurd rfl e)
  obtain ⟨a, _, _, ⟨s0, h0, hs⟩, _, hd, _, hcu, _⟩ := advance_inv h
  have e0 : s0 = -15 := by
    have : steerSwitch exP.maxSteer (exP.steerDelta * (1 : Nat)) exC.steer 4 1 = some (-15) := rfl
    rw [this] at h0; simpa using h0.symm
  have e1 : s.steer = -15 := by rw [hs, e0]; rfl
  have e2 : s.custom = 1 := by rw [hcu rfl (by rw [a]; rfl)]; rfl
  exact ⟨c, s, h, e1, e2, fun g' preds' i k => advance_dead_end clamp exP so g' s preds' (by omega) (by omega) i k⟩

/-- Finding: the node at which the direction changes need not be straight itself (only its predecessors are tested): a
vehicle arriving with wheels turned by 15 degrees may reverse at once. -/
theorem switch_from_turned_wheels (clamp : ℝ → ℝ) (so : SOpts) (g : Int) (p1 p2 : SNode) (h1 : p1.steer = 0)
    (h2 : p2.steer = 0) (rest : List SNode) :
    ∃ c s, advance clamp exP so g ⟨0, 0, 0, true, 15, 0, 5⟩ (p1 :: p2 :: rest) 4 1 = some (c, s) ∧
      s.forward = false := by
  obtain ⟨c, s, h⟩ := advance_isSome clamp exP so g ⟨0, 0, 0, true, 15, 0, 5⟩ (p1 :: p2 :: rest) 4 1 0 rfl
    (fun e => absurd e (by norm_num)) (fun e => absurd e (by norm_num))
    (fun _ _ => ⟨le_refl _, rfl, by
      show straightPreds 2 (p1 :: p2 :: rest) = true
      simp [straightPreds, h1, h2]⟩)
  exact ⟨c, s, h, (advance_inv h).1⟩

/-- Finding: with `moves = FORWARD` the flag `custom` is never set.  The new node gets whatever the uninitialised variable
contains; if that is positive, the node has no successors unless its wheels are straight. -/
theorem forward_only_custom_uninitialised {clamp : ℝ → ℝ} {P : SteerP} {so : SOpts} {g : Int} {ref : SNode}
    {preds : List SNode} {i step : Nat} {c : ℝ} {s : SNode} (h6 : P.size = 3)
    (h : advance clamp P so g ref preds i step = some (c, s)) :
    s.custom = g ∧ (0 < g → s.steer ≠ 0 → ∀ g' preds' i' k', advance clamp P so g' s preds' i' k' = none) := by
  obtain ⟨_, _, _, _, _, _, _, _, hg, _⟩ := advance_inv h
  have e := hg (by omega)
  exact ⟨e, fun hp hs g' preds' i' k' => advance_dead_end clamp P so g' s preds' (by omega) hs i' k'⟩

/-- Straight forward steps of 1.5 cells only. -/
def exQ : SteerP := ⟨1.5, 1, 3, 30, 15, 0, 3, false, 3⟩

/-- The grid manager: cells of size 1. -/
def exMap : SMap (Int × Int) where
  contains _ _ := true
  lineFree _ _ _ _ := true
  lookup x y _ _ _ := some (⌊x⌋, ⌊y⌋)

/-- `processNeighbor`: relabel if strictly closer (unlabelled nodes: distance `⊤`). -/
def exProc (d : Int × Int → WithTop ℝ) (ref n : Int × Int) (c : ℝ) : (Int × Int → WithTop ℝ) × Bool :=
  if d ref + (c : WithTop ℝ) < d n then (Function.update d n (d ref + c), true) else (d, false)

/-- Two nodes of the open list: one at (0,0) with distance 1 and one at (-0.1, 0.9) with distance 0. -/
def exD : Int × Int → WithTop ℝ := fun n => if n = (0, 0) then ((1 : ℝ) : WithTop ℝ) else
  if n = (-1, 0) then ((0 : ℝ) : WithTop ℝ) else ⊤
def exStore : SStore (Int × Int) where
  node n := if n = (-1, 0) then ⟨-0.1, 0.9, 0, true, 0, 0, 0⟩ else ⟨0, 0, 0, true, 0, 0, 0⟩
  prev _ := none

theorem exQ_step (clamp : ℝ → ℝ) (x y : ℝ) (d : Int) (preds : List SNode) (h0 : clamp 0 = 0) :
    advance clamp exQ {} 0 ⟨x, y, 0, true, 0, 0, d⟩ preds 0 0 = some (1.5, ⟨x + 1.5, y, 0, true, 0, 0, d + 1⟩) := by
  unfold advance
  simp [steerSwitch, steerClamp, exQ, SteerP.distPx, steerMove, h0]

theorem exQ_iterate (clamp : ℝ → ℝ) (ref : Int × Int) (a : (Int × Int → WithTop ℝ) × SStore (Int × Int)) (x y : ℝ)
    (d : Int) (h0 : clamp 0 = 0) (hn : a.2.node ref = ⟨x, y, 0, true, 0, 0, d⟩) :
    iterateFree clamp exQ {} (fun _ => 0) exMap exProc ref a =
      if (a.1 ref + ((1.5 : ℝ) : WithTop ℝ) < a.1 (⌊x + 1.5⌋, ⌊y⌋)) then
        (Function.update a.1 (⌊x + 1.5⌋, ⌊y⌋) (a.1 ref + ((1.5 : ℝ) : WithTop ℝ)),
          a.2.relabel (⌊x + 1.5⌋, ⌊y⌋) ref ⟨x + 1.5, y, 0, true, 0, 0, d + 1⟩)
      else a := by
  have hnone : ∀ r l i, (i = 1 ∨ i = 2) → advance clamp exQ {} 0 r l i 0 = none := by
    intro r l i hi
    cases h : advance clamp exQ {} 0 r l i 0 with
    | none => rfl
    | some q =>
      obtain ⟨_, _, _, ⟨s0, h0, _⟩, _⟩ := advance_inv (c := q.1) (s := q.2) h
      unfold steerSwitch at h0
      rcases hi with rfl | rfl <;> simp at h0
  have hml : moveList 0 exQ.size exQ.steerSteps = [(0, 0), (1, 0), (2, 0)] := by decide +kernel
  unfold iterateFree
  rw [hml]
  simp only [List.foldl_cons, List.foldl_nil, hnone _ _ 1 (Or.inl rfl), hnone _ _ 2 (Or.inr rfl)]
  have e : ∀ b, tryNeighbor exMap exProc ref none b = b := fun b => rfl
  rw [e, e, hn, exQ_step clamp x y d _ h0]
  unfold tryNeighbor
  simp only []
  rw [if_neg (by norm_num)]
  simp only [exMap, if_true]
  unfold exProc
  split_ifs <;> simp_all

/-- Finding (C64): without `NoReopen` (that is, with an inconsistent heuristic) the returned path need not be drivable.
A node's fields are overwritten when it is reached again by a cheaper path, while its children keep the position computed
from the old fields.  Here every step is 1.5 cells long, but after the expansions `(0,0)`, `(1,0)`, `(-1,0)` the node
`(3,0)` is farther than 1.5 cells from its predecessor, so no step leads there. -/
theorem reopened_node_breaks_path (clamp : ℝ → ℝ) (hclamp : ClampSpec clamp) :
    let st := (expandAll clamp exQ {} (fun _ => 0) exMap exProc [(0, 0), (1, 0), (-1, 0)] (exD, exStore)).2
    st.prev (3, 0) = some (1, 0) ∧ st.prev (1, 0) = some (-1, 0) ∧ 1.5 < nodeDist (st.node (1, 0)) (st.node (3, 0)) ∧
      ∀ g preds i k c, advance clamp exQ {} g (st.node (1, 0)) preds i k ≠ some (c, st.node (3, 0)) := by
  have h0 : clamp 0 = 0 := by
    obtain ⟨k, hk⟩ := hclamp.mod 0
    have h1 := hclamp.lo 0
    have h2 := hclamp.hi 0
    have hpi := Real.pi_pos
    rw [hk] at h1 h2 ⊢
    have hk0 : k = 0 := by
      have h3 : (-1 : ℝ) < k := by nlinarith
      have h4 : (k : ℝ) < 1 := by nlinarith
      have h3' : -1 < k := by exact_mod_cast h3
      have h4' : k < 1 := by exact_mod_cast h4
      omega
    rw [hk0]; simp
  have f1 : ⌊(0 : ℝ) + 1.5⌋ = 1 := by rw [Int.floor_eq_iff]; norm_num
  have f2 : ⌊(0 : ℝ)⌋ = 0 := Int.floor_zero
  have f3 : ⌊(1.5 : ℝ) + 1.5⌋ = 3 := by rw [Int.floor_eq_iff]; norm_num
  have f4 : ⌊(-0.1 : ℝ) + 1.5⌋ = 1 := by rw [Int.floor_eq_iff]; norm_num
  have f5 : ⌊(0.9 : ℝ)⌋ = 0 := by rw [Int.floor_eq_iff]; norm_num
  intro st
  let st1 := exStore.relabel (1, 0) (0, 0) ⟨0 + 1.5, 0, 0, true, 0, 0, 0 + 1⟩
  let st2 := st1.relabel (3, 0) (1, 0) ⟨1.5 + 1.5, 0, 0, true, 0, 0, 1 + 1⟩
  let st3 := st2.relabel (1, 0) (-1, 0) ⟨-0.1 + 1.5, 0.9, 0, true, 0, 0, 0 + 1⟩
  let d1 := Function.update exD (1, 0) (exD (0, 0) + ((1.5 : ℝ) : WithTop ℝ))
  let d2 := Function.update d1 (3, 0) (d1 (1, 0) + ((1.5 : ℝ) : WithTop ℝ))
  have s1 : iterateFree clamp exQ {} (fun _ => 0) exMap exProc (0, 0) (exD, exStore) = (d1, st1) := by
    rw [exQ_iterate clamp (0, 0) (exD, exStore) 0 0 0 h0 (by simp [exStore]), f1, f2, if_pos]
    show ((1 : ℝ) : WithTop ℝ) + ((1.5 : ℝ) : WithTop ℝ) < ⊤
    rw [← WithTop.coe_add]; exact WithTop.coe_lt_top _
  have s2 : iterateFree clamp exQ {} (fun _ => 0) exMap exProc (1, 0) (d1, st1) = (d2, st2) := by
    rw [exQ_iterate clamp (1, 0) (d1, st1) 1.5 0 1 h0 (by simp [st1, SStore.relabel]), f3, f2, if_pos]
    have e1 : d1 (1, 0) = ((1 : ℝ) : WithTop ℝ) + ((1.5 : ℝ) : WithTop ℝ) := by simp [d1, exD]
    have e2 : d1 (3, 0) = ⊤ := by simp [d1, exD]
    simp only [e1, e2]
    rw [← WithTop.coe_add, ← WithTop.coe_add]; exact WithTop.coe_lt_top _
  have s3 : (iterateFree clamp exQ {} (fun _ => 0) exMap exProc (-1, 0) (d2, st2)).2 = st3 := by
    rw [exQ_iterate clamp (-1, 0) (d2, st2) (-0.1) 0.9 0 h0 (by simp [st2, st1, SStore.relabel, exStore]), f4, f5,
      if_pos]
    have e1 : d2 (1, 0) = ((1 : ℝ) : WithTop ℝ) + ((1.5 : ℝ) : WithTop ℝ) := by simp [d2, d1, exD]
    have e2 : d2 (-1, 0) = ((0 : ℝ) : WithTop ℝ) := by simp [d2, d1, exD]
    simp only [e1, e2]
    rw [← WithTop.coe_add, ← WithTop.coe_add, WithTop.coe_lt_coe]; norm_num
  have hst : st = st3 := by
    show (expandAll clamp exQ {} (fun _ => 0) exMap exProc [(0, 0), (1, 0), (-1, 0)] (exD, exStore)).2 = st3
    unfold expandAll
    simp only [List.foldl_cons, List.foldl_nil]
    rw [s1, s2, s3]
  have hdist : 1.5 < nodeDist (st3.node (1, 0)) (st3.node (3, 0)) := by
    unfold nodeDist
    apply Real.lt_sqrt_of_sq_lt
    simp [st3, st2, SStore.relabel]; norm_num
  rw [hst]
  refine ⟨by simp [st3, st2, SStore.relabel], by simp [st3, SStore.relabel], hdist, ?_⟩
  intro g preds i k c h
  obtain ⟨_, _, _, _, hmv, _⟩ := advance_inv h
  have := steerMove_chord clamp _ _ _ (by norm_num [exQ]) (by norm_num [exQ]) _ _ _ _ _ hmv
  norm_num [exQ] at this
  norm_num at hdist
  linarith

end PathPlanning
