import Verif.Lemmas.Ownership

/-!
# C89: no leaks, double frees or dangling owners — as long as nobody copies member-wise
-/

namespace PathPlanning

open Own Spec

namespace Own

/-- What the destructor and the accesses of an object rely on. -/
def Good (i : Nat) (H : Heap) : Obj → Prop
  | .curve segs => AllK .single H segs
  | .gen cs _ => AllK .single H cs.flatten
  | .cmap as => as.length = 128 ∧ AllP i H as
  | .mgr k w h data => ∀ a, data = some a →
    ∃ b, H.mem a = some b ∧ b.kind = .array ∧ b.size = k.count w h
  | .dyn cs => ChunksOk H cs
  | .astar n => ∀ p, n = some p → OpenOk H p
  | .costs d => AllK .array H d.toList
  | .maze a => AllK .array H [a]

/-- The pointers of an object, if there is one. -/
def ptrsO : Option Obj → List Nat
  | none => []
  | some o => ptrs o

theorem ptrs_dyn (cs : List (Option (Nat × Nat))) : ptrs (.dyn cs) = cs.flatMap cptrs := rfl

theorem ptrs_astar (n : Option (Nat × Nat)) : ptrs (.astar n) = cptrs n := rfl

theorem Good.live {i H o} (h : Good i H o) : ∀ a ∈ ptrs o, H.mem a ≠ none := by
  cases o with
  | curve segs => exact AllK.live h
  | gen cs k => exact AllK.live h
  | cmap as => exact h.2.allK.live
  | mgr k w hh data =>
    intro a ha
    obtain ⟨b, hb, -⟩ := h a (by simpa [ptrs] using ha)
    simp [hb]
  | dyn cs => exact ChunksOk.live h
  | astar n =>
    intro a ha
    cases n with
    | none => simp [ptrs] at ha
    | some p => exact (h p rfl).live a (by simpa [ptrs] using ha)
  | costs d => exact AllK.live h
  | maze a => exact AllK.live h

theorem Good.frame {i H o L H' L'} (h : Good i H o) (t : Tr H L H' L') (w : WF H)
    (hd : ∀ a ∈ ptrs o, a ∉ L) : Good i H' o := by
  cases o with
  | curve segs => exact AllK.frame h t w hd
  | gen cs k => exact AllK.frame h t w hd
  | cmap as => exact ⟨h.1, h.2.frame t w hd⟩
  | mgr k w0 h0 data =>
    intro a ha
    obtain ⟨b, hb, h1⟩ := h a ha
    refine ⟨b, ?_, h1⟩
    rw [t.frame a (hd a (by simp [ptrs, ha])) (w a (by simp [hb])), hb]
  | dyn cs => exact ChunksOk.frame h t w hd
  | astar n =>
    intro p hp
    obtain ⟨h0, ⟨b, hb, h1⟩, ⟨c, hc, h2⟩⟩ := h p hp
    refine ⟨h0, ⟨b, ?_, h1⟩, ⟨c, ?_, h2⟩⟩
    · rw [t.frame _ (hd _ (by simp [ptrs, hp])) (w _ (by simp [hb])), hb]
    · rw [t.frame _ (hd _ (by simp [ptrs, hp])) (w _ (by simp [hc])), hc]
  | costs d => exact AllK.frame h t w hd
  | maze a => exact AllK.frame h t w hd

/-- The invariant of all histories. -/
structure Inv (s : St) : Prop where
  wf : WF s.heap
  good : ∀ i o, s.obj i = some o → Good i s.heap o
  nodup : ∀ i o, s.obj i = some o → (ptrs o).Nodup
  disj : ∀ i j o p a, s.obj i = some o → s.obj j = some p → a ∈ ptrs o → a ∈ ptrs p → i = j
  owned : ∀ a, s.heap.mem a ≠ none → ∃ i o, s.obj i = some o ∧ a ∈ ptrs o

theorem Inv.clean {s} (h : Inv s) : Clean s where
  live_iff a := by
    rw [Option.isSome_iff_ne_none]
    refine ⟨h.owned a, ?_⟩
    rintro ⟨i, o, ho, ha⟩
    exact (h.good i o ho).live a ha
  unshared := h.disj
  once := h.nodup
  parents i as ho := by
    have := h.good i _ ho
    refine ⟨this.1, fun a ha => ?_⟩
    obtain ⟨b, h1, -, h2⟩ := this.2 a ha
    exact ⟨b, h1, h2⟩
  arrays i k w hh a ho := by
    obtain ⟨b, h1, -, h2⟩ := h.good i _ ho a rfl
    exact ⟨b, h1, h2⟩

theorem Inv.init : Inv St.init where
  wf a h := absurd rfl h
  good i o h := by simp [St.init] at h
  nodup i o h := by simp [St.init] at h
  disj i j o p a h := by simp [St.init] at h
  owned a h := absurd rfl h

/-- A piece of code that works on one object. -/
theorem Inv.set {s : St} (h : Inv s) {i : Nat} {H' : Heap} {o' : Option Obj}
    (t : Tr s.heap (ptrsO (s.obj i)) H' (ptrsO o')) (g : ∀ o, o' = some o → Good i H' o) :
    Inv (s.set i H' o') := by
  have nof : ∀ j o a, j ≠ i → s.obj j = some o → a ∈ ptrs o → a ∉ ptrsO (s.obj i) := by
    intro j o a hj ho ha h1
    cases hi : s.obj i with
    | none => simp [hi, ptrsO] at h1
    | some p => rw [hi] at h1; exact hj (h.disj j i o p a ho hi ha h1)
  refine ⟨t.wf h.wf, ?_, ?_, ?_, ?_⟩
  · intro j o ho
    simp only [St.set] at ho
    split at ho
    · rename_i hj; subst hj; exact g o ho
    · rename_i hj
      exact (h.good j o ho).frame t h.wf fun a ha => nof j o a hj ho ha
  · intro j o ho
    simp only [St.set] at ho
    split at ho
    · have := t.nodup; rw [ho] at this; exact this
    · exact h.nodup j o ho
  · have cross : ∀ j p a, j ≠ i → s.obj j = some p → a ∈ ptrs p → a ∈ ptrsO o' → False := by
      intro j p a hj hp ha h1
      rcases t.src a h1 with h2 | h2
      · exact nof j p a hj hp ha h2
      · exact absurd (h.wf a ((h.good j p hp).live a ha)) (by omega)
    intro j1 j2 o p a h1 h2 ha hb
    simp only [St.set] at h1 h2
    split at h1 <;> split at h2
    · omega
    · rename_i e1 e2
      exact (cross j2 p a e2 h2 hb (by rw [h1]; exact ha)).elim
    · rename_i e1 e2
      exact (cross j1 o a e1 h1 ha (by rw [h2]; exact hb)).elim
    · exact h.disj j1 j2 o p a h1 h2 ha hb
  · intro a ha
    simp only [St.set] at ha
    by_cases h1 : a ∈ ptrsO (s.obj i) ∨ s.heap.next ≤ a
    · have h2 := (t.live a h1).1 ha
      cases ho : o' with
      | none => simp [ho, ptrsO] at h2
      | some o => exact ⟨i, o, by simp [St.set, ho], by simpa [ho, ptrsO] using h2⟩
    · push Not at h1
      rw [t.frame a h1.1 h1.2] at ha
      obtain ⟨j, o, ho, hm⟩ := h.owned a ha
      have hj : j ≠ i := by
        rintro rfl
        rw [ho] at h1
        exact h1.1 hm
      exact ⟨j, o, by simp [St.set, hj, ho], hm⟩

theorem destroy_tr {H : Heap} (w : WF H) {i : Nat} {o : Obj} (g : Good i H o) (hn : (ptrs o).Nodup) :
    ∃ H' o', destroy H o = .ok (H', o') ∧ Tr H (ptrs o) H' (ptrsO o') ∧
      (∀ p, o' = some p → Good i H' p) ∧ ((∀ d, o ≠ .costs d) → o' = none) := by
  have no : ∀ {H'} {p : Obj}, (none : Option Obj) = some p → Good i H' p := fun h => by simp at h
  cases o with
  | curve segs =>
    obtain ⟨H', e, t⟩ := freeAll_tr (l := segs) w hn g
    exact ⟨H', none, by simp [destroy, curveFree, e], t, fun _ => no, fun _ => rfl⟩
  | gen cs k =>
    obtain ⟨H', e, t⟩ := freeCurves_tr w hn g
    exact ⟨H', none, by simp [destroy, e], t, fun _ => no, fun _ => rfl⟩
  | cmap as =>
    obtain ⟨H', e, t⟩ := freeAll_tr (l := as) w hn g.2.allK
    exact ⟨H', none, by simp [destroy, e], t, fun _ => no, fun _ => rfl⟩
  | mgr k w0 h0 data =>
    cases data with
    | none => exact ⟨H, none, rfl, Tr.refl w (L := []) (by simp) (by simp), fun _ => no, fun _ => rfl⟩
    | some a =>
      obtain ⟨b, hb, hk, -⟩ := g a rfl
      have kk : AllK .array H [a] := by
        intro c hc; simp only [List.mem_singleton] at hc; subst hc; exact ⟨b, hb, hk⟩
      obtain ⟨H', e, t⟩ := free_tr w kk
      exact ⟨H', none, by simp [destroy, e], t, fun _ => no, fun _ => rfl⟩
  | dyn cs =>
    obtain ⟨H', e, t⟩ := clearChunks_tr w (by rw [ptrs_dyn] at hn; exact hn) g
    exact ⟨H', none, by simp [destroy, e], t, fun _ => no, fun _ => rfl⟩
  | astar n =>
    cases n with
    | none => exact ⟨H, none, rfl, Tr.refl w (L := []) (by simp) (by simp), fun _ => no, fun _ => rfl⟩
    | some p =>
      obtain ⟨H', e, t⟩ := openFree_tr w (g p rfl)
      exact ⟨H', none, by simp [destroy, e], by simpa [ptrs_astar, cptrs, ptrsO] using t, fun _ => no,
        fun _ => rfl⟩
  | costs d =>
    refine ⟨H, some (.costs d), rfl, Tr.refl w (Good.live (i := i) g) hn, ?_, fun h => absurd rfl (h d)⟩
    rintro p hp
    cases hp
    exact g
  | maze a =>
    obtain ⟨H', e, t⟩ := free_tr w g
    exact ⟨H', none, by simp [destroy, e], t, fun _ => no, fun _ => rfl⟩

/-- The code runs without undefined behaviour and changes object `i` and its blocks only. -/
def Res (s : St) (i : Nat) (r : CRes St) : Prop :=
  ∃ H' o', r = .ok (s.set i H' o') ∧ Tr s.heap (ptrsO (s.obj i)) H' (ptrsO o') ∧
    ∀ o, o' = some o → Good i H' o

theorem Inv.res {s : St} {i : Nat} {H' : Heap} {o' : Option Obj}
    (t : Tr s.heap (ptrsO (s.obj i)) H' (ptrsO o')) (g : ∀ o, o' = some o → Good i H' o) :
    Res s i (.ok (s.set i H' o')) := ⟨H', o', rfl, t, g⟩

theorem set_self (s : St) (i : Nat) : s.set i s.heap (s.obj i) = s := by
  unfold St.set
  have : (fun j => if j = i then s.obj i else s.obj j) = s.obj := by
    funext j
    by_cases h : j = i
    · simp [h]
    · simp [h]
  rw [this]

theorem Inv.same {s : St} (h : Inv s) (i : Nat) : Res s i (.ok s) := by
  refine ⟨s.heap, s.obj i, by rw [set_self], ?_, fun o ho => h.good i o ho⟩
  cases ho : s.obj i with
  | none => exact Tr.refl h.wf (by simp [ptrsO]) (by simp [ptrsO])
  | some o => exact Tr.refl h.wf (h.good i o ho).live (h.nodup i o ho)

theorem Inv.ifFree {s : St} (h : Inv s) {i : Nat} {f : Heap × Option Obj}
    (t : Tr s.heap [] f.1 (ptrsO f.2)) (g : ∀ o, f.2 = some o → Good i f.1 o) :
    Res s i (ifFree s i f) := by
  unfold Own.ifFree
  cases ho : s.obj i with
  | none => exact Inv.res (by rw [ho]; exact t) g
  | some o => exact h.same i

/-- The object an operation is about. -/
def target : Op → Nat
  | .newCurve i | .addSeg i _ | .editSeg i _ _ | .copyCurve i _ | .newGen i | .parse i _ _ _
  | .findPath i _ _ | .newMap i _ | .copyMap i _ | .useArea i _ _ | .newMgr i _ | .setMap i _ _
  | .node i _ | .newDyn i | .setMapDyn i _ _ | .lookup i _ _ | .newAStar i _ _
  | .setNewMap i _ _ _ _ | .newCosts i | .setCosts i _ _ | .newMaze i _ | .destroy i
  | .memberwise i _ => i

/-- One operation has no undefined behaviour and changes only its target. -/
theorem step_res {s : St} (h : Inv s) {op : Op} (he : Explicit op) (hf : FitsOp op) :
    Res s (target op) (step s op) := by
  have triv : ∀ i, Res s i (.ok s) := h.same
  have nil : Tr s.heap [] s.heap [] := Tr.refl h.wf (by simp) (by simp)
  cases op with
  | newCurve i => exact h.ifFree nil (by rintro o ho; cases ho; simp [Good, AllK])
  | addSeg i tag =>
    simp only [step, target]
    split
    · rename_i segs ho
      obtain ⟨t, k⟩ := curveAdd_tr h.wf (h.nodup i _ ho) (h.good i _ ho) tag
      exact ⟨_, _, rfl, by rw [ho]; exact t, (by rintro o hh; cases hh; exact k)⟩
    · exact triv _
  | editSeg i n tag =>
    simp only [step, target]
    split
    · rename_i segs ho
      split
      · rename_i a ha
        have g : AllK .single s.heap segs := h.good i _ ho
        have ha' := List.mem_of_getElem? ha
        obtain ⟨b, hb, hk⟩ := g a ha'
        obtain ⟨H', e, t, m, fr⟩ := write_tr h.wf g.live (h.nodup i _ ho) ha' hb
          (fun b => { b with tag := tag })
        refine ⟨_, _, by rw [e]; rfl, by rw [ho]; exact t, ?_⟩
        rintro o hh
        cases hh
        intro c hc
        by_cases hca : c = a
        · subst hca; exact ⟨_, m, hk⟩
        · rw [fr c hca]; exact g c hc
      · exact triv _
    · exact triv _
  | copyCurve i j =>
    simp only [step, target]
    split
    · rename_i segs ho hj
      obtain ⟨ns, H', e, t, k, -⟩ := cloneAll_tr h.wf (l := segs) (h.good j _ hj).live
      exact ⟨_, _, by rw [e]; rfl, by rw [ho]; exact t, (by rintro o hh; cases hh; exact k)⟩
    · exact triv _
  | newGen i => exact h.ifFree nil (by rintro o ho; cases ho; simp [Good, AllK])
  | parse i cap' tags acc =>
    simp only [step, target]
    split
    · rename_i cs cap ho
      obtain ⟨cs', k, H', e, t, g⟩ := genParse_tr h.wf cap cap' tags acc (h.nodup i _ ho)
        (h.good i _ ho)
      exact ⟨_, _, by rw [e]; rfl, by rw [ho]; exact t, (by rintro o hh; cases hh; exact g)⟩
    · exact triv _
  | findPath i j n =>
    simp only [step, target]
    split
    · rename_i cs cap ho hj
      split
      · rename_i segs hs
        obtain ⟨ns, H', e, t, k, -⟩ := cloneAll_tr h.wf (l := segs) (fun a ha =>
          (h.good j _ hj).live a (List.mem_flatten.2 ⟨segs, List.mem_of_getElem? hs, ha⟩))
        exact ⟨_, _, by rw [e]; rfl, by rw [ho]; exact t, (by rintro o hh; cases hh; exact k)⟩
      · exact triv _
    · exact triv _
  | newMap i tag =>
    obtain ⟨t, p, l⟩ := areasNew_tr i tag (ts := List.range slots) h.wf
    exact h.ifFree (f := ((areasNew i tag s.heap (List.range slots)).2,
      some (.cmap (areasNew i tag s.heap (List.range slots)).1))) t
      (by rintro o hh; cases hh; exact ⟨by rw [l]; simp [slots], p⟩)
  | copyMap i j =>
    simp only [step, target]
    split
    · rename_i as ho hj
      obtain ⟨ns, H', e, t, k, sm⟩ := areasCopy_tr i h.wf (l := as) (h.good j _ hj).live
      have g := h.good j _ hj
      refine ⟨_, _, by rw [e]; rfl, by rw [ho]; exact t, ?_⟩
      rintro o hh
      cases hh
      exact ⟨by rw [← sm.length_eq]; exact g.1, k⟩
    · exact triv _
  | useArea i n tag =>
    simp only [step, target]
    split
    · rename_i segs ho
      split
      · rename_i a ha
        obtain ⟨g0, g⟩ : _ ∧ AllP i s.heap segs := h.good i _ ho
        have ha' := List.mem_of_getElem? ha
        obtain ⟨b, hb, hk, hp⟩ := g a ha'
        obtain ⟨H', e, t, m, fr⟩ := write_tr h.wf g.allK.live (h.nodup i _ ho) ha' hb
          (fun b => { b with tag := tag })
        refine ⟨_, _, by rw [e]; rfl, by rw [ho]; exact t, ?_⟩
        rintro o hh
        cases hh
        refine ⟨g0, ?_⟩
        intro c hc
        by_cases hca : c = a
        · subst hca; exact ⟨_, m, hk, hp⟩
        · rw [fr c hca]; exact g c hc
      · exact triv _
    · exact triv _
  | newMgr i k => exact h.ifFree nil (by rintro o ho; cases ho; simp [Good])
  | setMap i w hh =>
    simp only [step, target]
    split
    · rename_i k w0 h0 data ho
      obtain ⟨hf1, hf2, hf3⟩ := hf
      obtain ⟨a, H', e, t, g, -⟩ := initMap_tr h.wf k (h.good i _ ho) hf1 hf2 hf3
      refine ⟨_, _, by rw [e]; rfl, by rw [ho]; exact t, ?_⟩
      rintro o hh
      cases hh
      rintro c hc
      cases hc
      exact g
    · exact triv _
  | node i n =>
    simp only [step, target]
    split
    · rename_i k w0 h0 a ho
      split
      · rename_i hn
        obtain ⟨b, hb, -, hs⟩ := h.good i _ ho a rfl
        rw [elem_ok hb (by omega)]
        exact triv _
      · exact triv _
    · exact triv _
  | newDyn i => exact h.ifFree nil (by rintro o ho; cases ho; simp [Good, ChunksOk])
  | setMapDyn i w hh =>
    simp only [step, target]
    split
    · rename_i cs ho
      obtain ⟨H', e, t⟩ := clearChunks_tr h.wf (h.nodup i _ ho) (h.good i _ ho)
      refine ⟨_, _, by rw [e]; rfl, ?_, ?_⟩
      · rw [ho]
        have : ptrsO (some (.dyn (List.replicate (chunkCount w hh) none))) = [] := by
          rw [ptrsO, ptrs_dyn, List.flatMap_eq_nil_iff]
          intro c hc
          rw [List.eq_of_mem_replicate hc]
          rfl
        rw [this]
        exact t
      · rintro o ho
        cases ho
        intro p hp
        exact absurd (List.eq_of_mem_replicate hp) (by simp)
    · exact triv _
  | lookup i n k =>
    simp only [step, target]
    split
    · rename_i cs ho
      split
      · rename_i hk
        rcases dynLookup_tr h.wf n k (h.nodup i _ ho) (h.good i _ ho) hk with
          ⟨-, x, e⟩ | ⟨p, cs', H', e, t, g, -⟩
        · rw [e]; exact triv _
        · rw [e]
          refine ⟨_, _, rfl, by rw [ho]; exact t, (by rintro o hh; cases hh; exact g)⟩
      · exact triv _
    · exact triv _
  | newAStar i w hh =>
    simp only [step, target]
    split
    · rename_i ho
      obtain ⟨p, H', e, t, g⟩ := astarSet_tr h.wf (nodes := none) (by simp) none w hh
      refine ⟨_, _, by rw [e]; rfl, by rw [ho]; exact t, ?_⟩
      rintro o hh
      cases hh
      rintro q hq
      cases hq
      exact g
    · exact triv _
  | setNewMap i cw ch w hh =>
    simp only [step, target]
    split
    · rename_i n ho
      obtain ⟨p, H', e, t, g⟩ := astarSet_tr h.wf (h.good i _ ho) (some (cw, ch)) w hh
      refine ⟨_, _, by rw [e]; rfl, by rw [ho]; exact t, ?_⟩
      rintro o hh
      cases hh
      rintro q hq
      cases hq
      exact g
    · exact triv _
  | newCosts i => exact h.ifFree nil (by rintro o ho; cases ho; simp [Good, AllK])
  | setCosts i w hh =>
    simp only [step, target]
    split
    · rename_i d ho
      have key : ∃ H1, (match d with
          | some a => s.heap.free .array a
          | none => pure s.heap) = .ok H1 ∧ Tr s.heap d.toList H1 [] := by
        cases d with
        | none => exact ⟨s.heap, rfl, nil⟩
        | some a => exact free_tr h.wf (h.good i _ ho)
      obtain ⟨H1, e, t⟩ := key
      obtain ⟨t2, m⟩ := alloc_tr (t.wf h.wf) ⟨.array, wrapU (w * hh), 0, 0⟩
      refine ⟨(H1.alloc ⟨.array, wrapU (w * hh), 0, 0⟩).2,
        some (.costs (some (H1.alloc ⟨.array, wrapU (w * hh), 0, 0⟩).1)), ?_,
        by rw [ho]; exact t.trans t2, ?_⟩
      · cases d with
        | none =>
          simp only [CRes.pure_eq, CRes.ok.injEq] at e
          subst e
          rfl
        | some a =>
          simp only at e
          simp only [e]
          rfl
      · rintro o hh
        cases hh
        intro c hc
        simp only [Option.toList, List.mem_singleton] at hc
        subst hc
        exact ⟨_, m, rfl⟩
    · exact triv _
  | newMaze i n =>
    obtain ⟨t, m⟩ := alloc_tr h.wf ⟨.array, n, 0, 0⟩
    refine h.ifFree (f := ((s.heap.alloc ⟨.array, n, 0, 0⟩).2,
      some (.maze (s.heap.alloc ⟨.array, n, 0, 0⟩).1))) t ?_
    rintro o hh
    cases hh
    intro c hc
    simp only [List.mem_singleton] at hc
    subst hc
    exact ⟨_, m, rfl⟩
  | destroy i =>
    simp only [step, target]
    split
    · rename_i o ho
      obtain ⟨H', o', e, t, g, -⟩ := destroy_tr h.wf (h.good i o ho) (h.nodup i o ho)
      exact ⟨_, _, by rw [e]; rfl, by rw [ho]; exact t, g⟩
    · exact triv _
  | memberwise i j => exact he.elim

/-- One operation keeps the invariant and has no undefined behaviour. -/
theorem step_inv {s : St} (h : Inv s) {op : Op} (he : Explicit op) (hf : FitsOp op) :
    ∃ s', step s op = .ok s' ∧ Inv s' := by
  obtain ⟨H', o', e, t, g⟩ := step_res h he hf
  exact ⟨_, e, h.set t g⟩

theorem run_inv : ∀ {ops : List Op} {s : St}, Inv s → (∀ op ∈ ops, Explicit op ∧ FitsOp op) →
    ∃ s', run s ops = .ok s' ∧ Inv s'
  | [], s, h, _ => ⟨s, rfl, h⟩
  | op :: ops, s, h, ho => by
    obtain ⟨s1, e1, h1⟩ := step_inv h (ho op (by simp)).1 (ho op (by simp)).2
    obtain ⟨s2, e2, h2⟩ := run_inv (ops := ops) h1 fun o hm => ho o (List.mem_cons_of_mem _ hm)
    exact ⟨s2, by simp [run, e1, e2], h2⟩

/-! ### The claims -/

theorem _root_.PathPlanning.Spec.Legit.inv {s : St} (h : Legit s) : Inv s := by
  obtain ⟨ops, ho, e⟩ := h
  obtain ⟨s', e', hi⟩ := run_inv Inv.init ho
  rw [e] at e'
  cases e'
  exact hi

/-- C89: Whatever objects are created, used, copied with the copy constructors the library defines
and destroyed, in whatever order: no access to freed memory, no double free, no deallocation with
the wrong operator, no access outside a block; afterwards every live block belongs to exactly one
existing object and every pointer of an object is valid; the areas of a collision map (also of a
copied one) refer to this map. -/
theorem ownership_clean (ops : List Op) (h : ∀ op ∈ ops, Explicit op ∧ FitsOp op) :
    ∃ s, run St.init ops = .ok s ∧ Clean s := by
  obtain ⟨s, e, hi⟩ := run_inv Inv.init h
  exact ⟨s, e, hi.clean⟩

/-- C89: When all objects are destroyed (the static table may remain), nothing is left on the heap
except the block of the static table. -/
theorem ownership_no_leak (ops : List Op) (h : ∀ op ∈ ops, Explicit op ∧ FitsOp op) {s : St}
    (e : run St.init ops = .ok s) (hd : ∀ i o, s.obj i = some o → ∃ d, o = .costs d) (a : Nat) :
    s.heap.mem a = none ∨ ∃ i, s.obj i = some (.costs (some a)) := by
  obtain ⟨s', e', hi⟩ := run_inv Inv.init h
  rw [e] at e'
  cases e'
  by_cases hm : s.heap.mem a = none
  · exact Or.inl hm
  · right
    obtain ⟨i, o, ho, ha⟩ := hi.owned a hm
    obtain ⟨d, rfl⟩ := hd i o ho
    cases d with
    | none => simp [ptrs] at ha
    | some c =>
      simp only [ptrs, Option.toList, List.mem_singleton] at ha
      subst ha
      exact ⟨i, ho⟩

/-- C89: Destroying an object removes it, frees all its blocks and leaves all other objects and
their blocks alone. -/
theorem destroy_exact {s : St} (hr : Legit s) {i : Nat} {o : Obj} (ho : s.obj i = some o)
    (hc : ∀ d, o ≠ .costs d) :
    ∃ s', step s (.destroy i) = .ok s' ∧ s'.obj i = none ∧ (∀ a ∈ ptrs o, s'.heap.mem a = none) ∧
      ∀ j p, j ≠ i → s.obj j = some p → s'.obj j = some p ∧
        ∀ a ∈ ptrs p, s'.heap.mem a = s.heap.mem a := by
  have h := hr.inv
  obtain ⟨H', o', e, t, g, hn⟩ := destroy_tr h.wf (h.good i o ho) (h.nodup i o ho)
  have hn := hn hc
  subst hn
  refine ⟨s.set i H' none, ?_, by simp [St.set], ?_, ?_⟩
  · simp only [step, ho]
    rw [e]
    rfl
  · intro a ha
    by_contra hne
    have := (t.live a (Or.inl ha)).1 hne
    simp [ptrsO] at this
  · intro j p hj hp
    refine ⟨by simp [St.set, hj, hp], fun a ha => ?_⟩
    refine t.frame a (fun h1 => hj (h.disj j i p o a hp ho ha h1)) ?_
    exact h.wf a ((h.good j p hp).live a ha)

/-- C89: An operation on one object never changes another object or its memory; in particular
changing the original after copying does not change the copy. -/
theorem others_untouched {s : St} (hr : Legit s) {op : Op} (he : Explicit op) (hf : FitsOp op)
    {s' : St} (e : step s op = .ok s') {j : Nat} (hj : j ≠ target op) {p : Obj}
    (hp : s.obj j = some p) :
    s'.obj j = some p ∧ ∀ a ∈ ptrs p, s'.heap.mem a = s.heap.mem a := by
  have h := hr.inv
  obtain ⟨H', o', e', t, -⟩ := step_res h he hf
  rw [e] at e'
  cases e'
  refine ⟨by simp [St.set, hj, hp], fun a ha => ?_⟩
  refine t.frame a (fun h1 => ?_) (h.wf a ((h.good j p hp).live a ha))
  cases hi : s.obj (target op) with
  | none => simp [hi, ptrsO] at h1
  | some q =>
    rw [hi] at h1
    exact hj (h.disj j _ p q a hp hi ha h1)

/-- The contents of the segments of a curve. -/
def contents (s : St) (l : List Nat) : List (Option Nat) := l.map fun a => (s.heap.mem a).map Block.tag

theorem SameTags.contents {H H' : Heap} {l l' : List Nat} (h : SameTags H l H' l') :
    l.map (fun a => (H.mem a).map Block.tag) = l'.map fun a => (H'.mem a).map Block.tag := by
  unfold SameTags at h
  induction h with
  | nil => rfl
  | cons h _ ih => simp [h, ih]

/-- C89: A copied curve has the same segments as the original, in memory of its own. -/
theorem copyCurve_deep {s : St} (hr : Legit s) {i j : Nat} {segs : List Nat} (hi : s.obj i = none)
    (hj : s.obj j = some (.curve segs)) :
    ∃ s' ns, step s (.copyCurve i j) = .ok s' ∧ s'.obj i = some (.curve ns) ∧
      s'.obj j = some (.curve segs) ∧ contents s' ns = contents s segs ∧
      contents s' segs = contents s segs ∧ ∀ a ∈ ns, a ∉ segs := by
  have h := hr.inv
  obtain ⟨ns, H', e, t, k, sm⟩ := cloneAll_tr h.wf (l := segs) (h.good j _ hj).live
  have hne : j ≠ i := by rintro rfl; rw [hi] at hj; simp at hj
  have es : step s (.copyCurve i j) = .ok (s.set i H' (some (.curve ns))) := by
    simp only [step, hi, hj]
    rw [e]
    rfl
  have lt : ∀ a ∈ segs, a < s.heap.next := fun a ha => h.wf a ((h.good j _ hj).live a ha)
  refine ⟨_, ns, es, by simp [St.set], by simp [St.set, hne, hj], sm.contents.symm, ?_, ?_⟩
  · unfold contents
    refine List.map_congr_left fun a ha => ?_
    simp only [St.set]
    rw [t.frame a (by simp) (lt a ha)]
  · intro a ha hs
    rcases t.src a ha with h1 | h1
    · simp at h1
    · exact absurd (lt a hs) (by omega)

/-- C89: A copied collision map has the same areas as the original, in memory of its own, and they
refer to the copy; those of the original still refer to the original. -/
theorem copyMap_deep {s : St} (hr : Legit s) {i j : Nat} {as : List Nat} (hi : s.obj i = none)
    (hj : s.obj j = some (.cmap as)) :
    ∃ s' ns, step s (.copyMap i j) = .ok s' ∧ s'.obj i = some (.cmap ns) ∧
      s'.obj j = some (.cmap as) ∧ contents s' ns = contents s as ∧
      (∀ a ∈ ns, (s'.heap.mem a).map Block.parent = some i) ∧
      (∀ a ∈ as, (s'.heap.mem a).map Block.parent = some j) ∧ ∀ a ∈ ns, a ∉ as := by
  have h := hr.inv
  obtain ⟨ns, H', e, t, k, sm⟩ := areasCopy_tr i h.wf (l := as) (h.good j _ hj).live
  have hne : j ≠ i := by rintro rfl; rw [hi] at hj; simp at hj
  have es : step s (.copyMap i j) = .ok (s.set i H' (some (.cmap ns))) := by
    simp only [step, hi, hj]
    rw [e]
    rfl
  have lt : ∀ a ∈ as, a < s.heap.next := fun a ha => h.wf a ((h.good j _ hj).live a ha)
  refine ⟨_, ns, es, by simp [St.set], by simp [St.set, hne, hj], sm.contents.symm, ?_, ?_, ?_⟩
  · intro a ha
    obtain ⟨b, hb, -, hp⟩ := k a ha
    simp [St.set, hb, hp]
  · intro a ha
    obtain ⟨b, hb, -, hp⟩ := (h.good j _ hj).2 a ha
    simp only [St.set]
    rw [t.frame a (by simp) (lt a ha), hb]
    simp [hp]
  · intro a ha hs
    rcases t.src a ha with h1 | h1
    · simp at h1
    · exact absurd (lt a hs) (by omega)

/-! ### Node pointers -/

/-- C89: A pointer to a node of a manager stays valid after `setMap` exactly if the new map has the
same size as the old one. -/
theorem node_pointer_valid_iff {s : St} (hr : Legit s) {i : Nat} {k : MKind} {w0 h0 a n : Nat}
    (ho : s.obj i = some (.mgr k w0 h0 (some a))) (hn : n < k.count w0 h0) {w hh : Nat}
    (hf : FitsOp (.setMap i w hh)) :
    Valid s (a, n) ∧ ∃ s', step s (.setMap i w hh) = .ok s' ∧
      (Valid s' (a, n) ↔ w0 = w ∧ h0 = hh) := by
  have h := hr.inv
  obtain ⟨b, hb, hbk, hs⟩ := h.good i _ ho a rfl
  refine ⟨⟨b, hb, by omega⟩, ?_⟩
  obtain ⟨hf1, hf2, hf3⟩ := hf
  obtain ⟨c, H', e, t, g, hiff, hsame⟩ := initMap_tr h.wf k (h.good i _ ho) hf1 hf2 hf3
  refine ⟨_, by simp only [step, ho]; rw [e]; rfl, ?_⟩
  simp only [Option.some.injEq, Option.isSome_some, true_and] at hiff
  by_cases hc : a = c
  · have := hsame (by rw [hc])
    subst this
    simp only [hiff.1 hc, and_self, iff_true]
    exact ⟨b, hb, by omega⟩
  · have hne : ¬(w0 = w ∧ h0 = hh) := fun h1 => hc (hiff.2 h1)
    simp only [hne, iff_false]
    rintro ⟨b', hb', -⟩
    simp only [St.set] at hb'
    have := (t.live a (Or.inl (by simp))).1 (by rw [hb']; simp)
    simp only [List.mem_singleton] at this
    exact hc this

/-- C89: After `setMap` of the dynamic manager every node pointer obtained before is invalid, also if
the map has the same size. -/
theorem dyn_pointers_dangle {s : St} (hr : Legit s) {i : Nat} {cs : List (Option (Nat × Nat))}
    (ho : s.obj i = some (.dyn cs)) {p : Nat × Nat} (hp : some p ∈ cs) (n w hh : Nat) :
    ∃ s', step s (.setMapDyn i w hh) = .ok s' ∧ ¬Valid s' (p.2, n) := by
  have h := hr.inv
  obtain ⟨H', e, t⟩ := clearChunks_tr h.wf (h.nodup i _ ho) (h.good i _ ho)
  refine ⟨_, by simp only [step, ho]; rw [e]; rfl, ?_⟩
  rintro ⟨b, hb, -⟩
  simp only [St.set] at hb
  have := (t.live p.2 (Or.inl (mem_cptrs.2 ⟨p, hp, Or.inr rfl⟩))).1 (by rw [hb]; simp)
  simp at this

/-- C89: Looking up further nodes of the dynamic manager does not invalidate the pointers obtained
before. -/
theorem dyn_pointers_stable {s : St} (hr : Legit s) {i : Nat} {cs : List (Option (Nat × Nat))}
    (ho : s.obj i = some (.dyn cs)) {p : Nat × Nat} (hp : some p ∈ cs) {m : Nat}
    (hm : m < 2 * (32 * 32 * 32)) (n k : Nat) {s' : St} (e : step s (.lookup i n k) = .ok s') :
    Valid s' (p.2, m) := by
  have h := hr.inv
  have g : ChunksOk s.heap cs := h.good i _ ho
  simp only [step, ho] at e
  by_cases hk : k < 2 * (32 * 32 * 32)
  · rw [if_pos hk] at e
    rcases dynLookup_tr h.wf n k (h.nodup i _ ho) g hk with
      ⟨-, x, e1⟩ | ⟨q, cs', H', e1, t, g', hl, hq, -⟩
    · rw [e1] at e
      cases e
      obtain ⟨-, b, hb, -, hs⟩ := g p hp
      exact ⟨b, hb, by simp only [hs]; exact hm⟩
    · rw [e1] at e
      cases e
      have : some p ∈ cs' := by
        unfold dynLookup at e1
        split at e1
        · simp at e1
        · rename_i c d hcd
          obtain ⟨⟨b, hb, -⟩, ⟨b', hb', -, hs'⟩⟩ := g (c, d) (List.mem_of_getElem? hcd)
          simp only [Heap.deref, hb, elem_ok hb' (by omega : k < b'.size), CRes.ok_bind, CRes.pure_eq,
            CRes.ok.injEq, Prod.mk.injEq] at e1
          rw [← e1.2.1]
          exact hp
        · rename_i hcd
          obtain ⟨idx, hidx⟩ := List.getElem?_of_mem hp
          have hne : n ≠ idx := by
            rintro rfl
            rw [hcd] at hidx
            simp at hidx
          have e2 : ∃ r, cs' = cs.set n r := by
            revert e1
            simp only [chunkNew, Heap.alloc, Heap.deref, Heap.elem]
            simp only [Nat.succ_ne_self, if_false, if_true, CRes.ok_bind]
            intro e1
            split at e1 <;> first
              | simp at e1
              | skip
            all_goals
              split at e1 <;> first
                | (simp at e1; done)
                | (simp at e1; exact ⟨_, e1.2.1.symm⟩)
                | skip
          obtain ⟨r, rfl⟩ := e2
          refine List.mem_of_getElem? (i := idx) ?_
          rw [List.getElem?_set_ne hne]
          exact hidx
      obtain ⟨-, b, hb, -, hs⟩ := g' p this
      exact ⟨b, by simpa [St.set] using hb, by simp only [hs]; exact hm⟩
  · rw [if_neg hk] at e
    cases e
    obtain ⟨-, b, hb, -, hs⟩ := g p hp
    exact ⟨b, hb, by simp only [hs]; exact hm⟩

end Own
end PathPlanning
