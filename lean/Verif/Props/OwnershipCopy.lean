import Verif.Props.Ownership

/-!
# C89: what the compiler-generated copies do

`Curve`, `CollisionGridMap2d` and the node managers have destructors that free memory but leave the
assignment operator (the managers and `AStar` also the copy constructor) to the compiler.
-/

namespace PathPlanning

open Own Spec

namespace Own

theorem free_cases (k : Kind) (H : Heap) (a : Nat) :
    H.free k a = .ub ∨ ∃ H', H.free k a = .ok H' ∧ ∀ c, H.mem c = none → H'.mem c = none := by
  unfold Heap.free
  cases hb : H.mem a with
  | none => exact Or.inl rfl
  | some b =>
    by_cases hk : b.kind = k
    · right
      refine ⟨_, by simp [hk]; rfl, ?_⟩
      intro c hc
      simp [Heap.put, hc]
    · left
      simp [hk]

theorem freeAll_cases (k : Kind) : ∀ (l : List Nat) (H : Heap),
    freeAll k H l = .ub ∨ ∃ H', freeAll k H l = .ok H' ∧ ∀ c, H.mem c = none → H'.mem c = none
  | [], H => Or.inr ⟨H, rfl, fun _ h => h⟩
  | a :: l, H => by
    rcases free_cases k H a with e | ⟨H1, e, s1⟩
    · left; simp [freeAll, e]
    · rcases freeAll_cases k l H1 with e2 | ⟨H2, e2, s2⟩
      · left; simp [freeAll, e, e2]
      · right; exact ⟨H2, by simp [freeAll, e, e2], fun c hc => s2 c (s1 c hc)⟩

theorem freeCurves_dead : ∀ {cs : List (List Nat)} {H : Heap}, (∃ a ∈ cs.flatten, H.mem a = none) →
    freeCurves H cs = .ub
  | [], _, h => by simp at h
  | c :: cs, H, h => by
    obtain ⟨a, ha, hm⟩ := h
    rw [List.flatten_cons] at ha
    rcases List.mem_append.1 ha with ha | ha
    · have e : curveFree H c = .ub := freeAll_dead ⟨a, ha, hm⟩
      simp [freeCurves, e]
    · rcases freeAll_cases .single c H with e | ⟨H1, e, s1⟩
      · simp [freeCurves, curveFree, e]
      · have := freeCurves_dead (cs := cs) (H := H1) ⟨a, ha, s1 a hm⟩
        simp [freeCurves, curveFree, e, this]

theorem pairFree_dead {H : Heap} {k : Kind} {c d : Nat} (h : H.mem c = none ∨ H.mem d = none) :
    (do
      let _ ← H.deref c
      let H ← H.free k d
      H.free .single c : CRes Heap) = .ub := by
  cases hc : H.mem c with
  | none => simp [Heap.deref, hc]
  | some b =>
    rw [hc] at h
    simp only [reduceCtorEq, false_or] at h
    simp [Heap.deref, hc, free_dead h]

theorem chunkFree_cases (H : Heap) (c : Option (Nat × Nat)) :
    chunkFree H c = .ub ∨ ∃ H', chunkFree H c = .ok H' ∧ ∀ x, H.mem x = none → H'.mem x = none := by
  cases c with
  | none => exact Or.inr ⟨H, rfl, fun _ h => h⟩
  | some p =>
    obtain ⟨c, d⟩ := p
    cases hc : H.mem c with
    | none => left; simp [chunkFree, Heap.deref, hc]
    | some b =>
      rcases free_cases .array H d with e | ⟨H1, e, s1⟩
      · left; simp [chunkFree, Heap.deref, hc, e]
      · rcases free_cases .single H1 c with e2 | ⟨H2, e2, s2⟩
        · left; simp [chunkFree, Heap.deref, hc, e, e2]
        · right
          exact ⟨H2, by simp [chunkFree, Heap.deref, hc, e, e2], fun x hx => s2 x (s1 x hx)⟩

theorem clearChunks_dead : ∀ {cs : List (Option (Nat × Nat))} {H : Heap},
    (∃ a ∈ cs.flatMap cptrs, H.mem a = none) → clearChunks H cs = .ub
  | [], _, h => by simp at h
  | c :: cs, H, h => by
    obtain ⟨a, ha, hm⟩ := h
    rw [List.flatMap_cons] at ha
    rcases List.mem_append.1 ha with ha | ha
    · have e : chunkFree H c = .ub := by
        cases c with
        | none => simp [cptrs] at ha
        | some p =>
          obtain ⟨c, d⟩ := p
          refine pairFree_dead ?_
          simp only [cptrs, Option.toList, List.flatMap_cons, List.flatMap_nil, List.append_nil,
            List.mem_cons, List.not_mem_nil, or_false] at ha
          rcases ha with rfl | rfl
          · exact Or.inl hm
          · exact Or.inr hm
      simp [clearChunks, e]
    · rcases chunkFree_cases H c with e | ⟨H1, e, s1⟩
      · simp [clearChunks, e]
      · have := clearChunks_dead (cs := cs) (H := H1) ⟨a, ha, s1 a hm⟩
        simp [clearChunks, e, this]

/-- The destructor of an object one of whose blocks has been freed already. -/
theorem destroy_dead {H : Heap} {o : Obj} (hc : ∀ d, o ≠ .costs d) {a : Nat} (ha : a ∈ ptrs o)
    (hm : H.mem a = none) : destroy H o = .ub := by
  cases o with
  | curve segs =>
    have e : freeAll .single H segs = .ub := freeAll_dead ⟨a, ha, hm⟩
    simp [destroy, curveFree, e]
  | gen cs k =>
    have e : freeCurves H cs = .ub := freeCurves_dead ⟨a, ha, hm⟩
    simp [destroy, e]
  | cmap as =>
    have e : freeAll .single H as = .ub := freeAll_dead ⟨a, ha, hm⟩
    simp [destroy, e]
  | mgr k w h data =>
    cases data with
    | none => simp [ptrs] at ha
    | some d =>
      simp only [ptrs, Option.toList, List.mem_singleton] at ha
      subst ha
      simp [destroy, free_dead hm]
  | dyn cs =>
    have e : clearChunks H cs = .ub := clearChunks_dead ⟨a, ha, hm⟩
    simp [destroy, e]
  | astar n =>
    cases n with
    | none => simp [ptrs] at ha
    | some p =>
      simp only [ptrs, Option.toList, List.flatMap_cons, List.flatMap_nil, List.append_nil,
        List.mem_cons, List.not_mem_nil, or_false] at ha
      have e : openFree H p = .ub := pairFree_dead (by
        rcases ha with rfl | rfl
        · exact Or.inl hm
        · exact Or.inr hm)
      simp [destroy, e]
  | costs d => exact absurd rfl (hc d)
  | maze d =>
    simp only [ptrs, List.mem_singleton] at ha
    subst ha
    simp [destroy, free_dead hm]

/-- C89, why member-wise copies are excluded: copying any object that owns memory with the operation
the compiler generates and then destroying the copy and the original, in either order, is undefined
behaviour. -/
theorem memberwise_double_free {s : St} (hr : Legit s) {i j : Nat} (hij : i ≠ j) {o : Obj}
    (ho : s.obj j = some o) (hc : ∀ d, o ≠ .costs d) (hp : ptrs o ≠ []) :
    run s [.memberwise i j, .destroy i, .destroy j] = .ub ∧
      run s [.memberwise i j, .destroy j, .destroy i] = .ub := by
  have h := hr.inv
  obtain ⟨a, ha⟩ := List.exists_mem_of_ne_nil _ hp
  obtain ⟨H', o', e, t, -, hn⟩ := destroy_tr h.wf (h.good j o ho) (h.nodup j o ho)
  have hn := hn hc
  subst hn
  have dead : H'.mem a = none := by
    by_contra hne
    have := (t.live a (Or.inl ha)).1 hne
    simp [ptrsO] at this
  have d := destroy_dead hc ha dead
  constructor
  · simp [run, step, ho, St.set, e, hij.symm, d]
  · simp [run, step, ho, St.set, e, hij.symm, hij, d]

/-- C89: Assigning member-wise to an object that owns memory loses this memory: it stays allocated,
and nobody refers to it any more. -/
theorem memberwise_leak {s : St} (hr : Legit s) {i j : Nat} (hij : i ≠ j) {o p : Obj}
    (ho : s.obj j = some o) (hp : s.obj i = some p) {a : Nat} (ha : a ∈ ptrs p) :
    ∃ s', step s (.memberwise i j) = .ok s' ∧ s'.heap.mem a ≠ none ∧
      ∀ k q, s'.obj k = some q → a ∉ ptrs q := by
  have h := hr.inv
  refine ⟨s.set i s.heap (some o), by simp [step, ho], (h.good i p hp).live a ha, ?_⟩
  intro k q hq hm
  simp only [St.set] at hq
  split at hq
  · cases hq
    exact hij (h.disj i j p o a hp ho ha hm)
  · rename_i hk
    exact hk (h.disj k i q p a hq hp hm ha)

/-- C89: A collision map copied member-wise has areas which refer to the other map. -/
theorem memberwise_parent {s : St} (hr : Legit s) {i j : Nat} (hij : i ≠ j) {as : List Nat}
    (ho : s.obj j = some (.cmap as)) :
    ∃ s', step s (.memberwise i j) = .ok s' ∧ s'.obj i = some (.cmap as) ∧ ¬Clean s' := by
  have h := hr.inv
  refine ⟨s.set i s.heap (some (.cmap as)), by simp [step, ho], by simp [St.set], ?_⟩
  intro c
  have g := h.good j _ ho
  obtain ⟨a, ha⟩ : ∃ a, a ∈ as := by
    cases has : as with
    | nil => have := g.1; rw [has] at this; simp at this
    | cons a l => exact ⟨a, by simp⟩
  exact hij (c.unshared i j (.cmap as) (.cmap as) a (by simp [St.set])
    (by simp [St.set, hij.symm, ho]) ha ha)

/-! ### Concrete histories -/

/-- A history with all classes. -/
def demo : List Op :=
  [.newCurve 0, .addSeg 0 7, .addSeg 0 8, .copyCurve 1 0, .editSeg 0 0 9, .destroy 0,
   .newGen 2, .parse 2 1 [1, 2, 3] true, .parse 2 2 [4, 5, 6] true, .parse 2 2 [4] false,
   .findPath 3 2 1, .destroy 2, .newMap 4 (fun t => t), .copyMap 5 4, .useArea 5 3 77, .destroy 4,
   .newMgr 6 .directional, .setMap 6 2 3, .node 6 5, .setMap 6 3 2, .newDyn 7, .setMapDyn 7 2 2,
   .lookup 7 5 4, .setMapDyn 7 2 2, .lookup 7 3 1, .newAStar 8 4 4, .setNewMap 8 4 4 5 5,
   .newCosts 9, .setCosts 9 66 66, .setCosts 9 67 67, .newMaze 10 20]

theorem demo_ok : ∀ op ∈ demo, Explicit op ∧ FitsOp op := by
  simp [demo, Explicit, FitsOp]

example : ∃ s, run St.init demo = .ok s ∧ Clean s := ownership_clean demo demo_ok

/-- The object at address `i` after a run, for the evaluation of examples. -/
def objAfter (r : CRes St) (i : Nat) : Option Obj :=
  match r with
  | .ok s => s.obj i
  | _ => none

/-- The history ends with a copied curve, a copied map, a manager with nodes, a chunk, an open list:
the hypotheses of the theorems above are met. -/
theorem demo_objects :
    objAfter (run St.init demo) 1 = some (.curve [2, 3]) ∧
    objAfter (run St.init demo) 0 = none ∧
    ((objAfter (run St.init demo) 5).map fun o => (ptrs o).length) = some 128 ∧
    ((objAfter (run St.init demo) 6).map fun o => (ptrs o).length) = some 1 ∧
    ((objAfter (run St.init demo) 7).map fun o => (ptrs o).length) = some 2 ∧
    ((objAfter (run St.init demo) 8).map fun o => (ptrs o).length) = some 2 := by
  decide +kernel

/-- Assigning one curve to another and destroying both. -/
theorem curve_assign_double_free :
    run St.init [.newCurve 0, .addSeg 0 7, .newCurve 1, .memberwise 1 0, .destroy 1, .destroy 0] = .ub := by
  obtain ⟨s, e, -⟩ := run_inv (ops := [.newCurve 0, .addSeg 0 7, .newCurve 1]) Inv.init
    (by simp [Explicit, FitsOp])
  have hi : Legit s := ⟨_, by simp [Explicit, FitsOp], e⟩
  have h0 : s.obj 0 = some (.curve [0]) := by
    simp [run, step, Own.ifFree, St.init, St.set, curveAdd, Heap.alloc, Heap.empty] at e
    subst e
    simp
  have := (memberwise_double_free hi (i := 1) (j := 0) (by decide) h0 (by simp) (by simp [ptrs])).1
  simp only [run] at e this ⊢
  cases e1 : step St.init (.newCurve 0) with
  | ub => rw [e1] at e; simp at e
  | throw x => rw [e1] at e; simp at e
  | ok s1 =>
    rw [e1] at e
    simp only [CRes.ok_bind] at e ⊢
    cases e2 : step s1 (.addSeg 0 7) with
    | ub => rw [e2] at e; simp at e
    | throw x => rw [e2] at e; simp at e
    | ok s2 =>
      rw [e2] at e
      simp only [CRes.ok_bind] at e ⊢
      cases e3 : step s2 (.newCurve 1) with
      | ub => rw [e3] at e; simp at e
      | throw x => rw [e3] at e; simp at e
      | ok s3 =>
        rw [e3] at e
        simp only [CRes.ok_bind, CRes.ok.injEq] at e ⊢
        subst e
        exact this

end Own
end PathPlanning
