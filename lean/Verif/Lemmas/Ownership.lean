import Verif.Spec.Ownership
import Verif.Props.Managers
import Mathlib.Data.List.Basic
import Mathlib.Data.List.Nodup

/-!
# Heap lemmas: ownership transfer of a piece of code
-/

namespace PathPlanning.Own

/-- Only addresses below `next` are live. -/
def WF (H : Heap) : Prop := ∀ a, H.mem a ≠ none → a < H.next

/-- All addresses of `l` hold blocks of kind `k`. -/
def AllK (k : Kind) (H : Heap) (l : List Nat) : Prop := ∀ a ∈ l, ∃ b, H.mem a = some b ∧ b.kind = k

/-- A piece of code that owned the blocks `L` in heap `H` owns the blocks `L'` in heap `H'` and has
not touched anything else. -/
structure Tr (H : Heap) (L : List Nat) (H' : Heap) (L' : List Nat) : Prop where
  next_le : H.next ≤ H'.next
  frame : ∀ a, a ∉ L → a < H.next → H'.mem a = H.mem a
  src : ∀ a ∈ L', a ∈ L ∨ H.next ≤ a
  live : ∀ a, (a ∈ L ∨ H.next ≤ a) → (H'.mem a ≠ none ↔ a ∈ L')
  nodup : L'.Nodup
  bound : ∀ a ∈ L', a < H'.next

theorem AllK.live {k H l} (h : AllK k H l) : ∀ a ∈ l, H.mem a ≠ none := by
  intro a ha
  obtain ⟨b, hb, -⟩ := h a ha
  simp [hb]

theorem Tr.wf {H L H' L'} (h : Tr H L H' L') (w : WF H) : WF H' := by
  intro a ha
  by_cases hL : a ∈ L ∨ H.next ≤ a
  · exact h.bound a ((h.live a hL).1 ha)
  · push Not at hL
    have := h.frame a hL.1 hL.2
    exact lt_of_lt_of_le hL.2 h.next_le

/-- Code that does nothing. -/
theorem Tr.refl {H L} (w : WF H) (hl : ∀ a ∈ L, H.mem a ≠ none) (hn : L.Nodup) : Tr H L H L where
  next_le := le_rfl
  frame _ _ _ := rfl
  src _ h := Or.inl h
  live a h := by
    constructor
    · intro h1
      rcases h with h | h
      · exact h
      · exact absurd (w a h1) (by omega)
    · exact hl a
  nodup := hn
  bound a h := w a (hl a h)

theorem Tr.trans {H L H1 L1 H2 L2} (h : Tr H L H1 L1) (g : Tr H1 L1 H2 L2) : Tr H L H2 L2 where
  next_le := h.next_le.trans g.next_le
  frame a ha hn := by
    have h1 : a ∉ L1 := fun h1 => by
      rcases h.src a h1 with h2 | h2
      · exact ha h2
      · omega
    rw [g.frame a h1 (lt_of_lt_of_le hn h.next_le), h.frame a ha hn]
  src a ha := by
    rcases g.src a ha with h1 | h1
    · exact h.src a h1
    · exact Or.inr (h.next_le.trans h1)
  live a ha := by
    by_cases h1 : a ∈ L1 ∨ H1.next ≤ a
    · exact g.live a h1
    · have h2 := h1
      push Not at h2
      have e := g.frame a h2.1 h2.2
      rw [e, h.live a ha]
      constructor
      · exact fun h3 => absurd h3 h2.1
      · exact fun h3 => absurd (g.src a h3) h1
  nodup := g.nodup
  bound := g.bound

/-- Blocks which the code does not own stay owned by whoever owns them. -/
theorem Tr.add {H L H' L'} (h : Tr H L H' L') {R : List Nat} (w : WF H)
    (hl : ∀ a ∈ R, H.mem a ≠ none) (hn : R.Nodup) (hd : ∀ a ∈ R, a ∉ L) :
    Tr H (L ++ R) H' (L' ++ R) where
  next_le := h.next_le
  frame a ha hn := h.frame a (fun h1 => ha (List.mem_append_left _ h1)) hn
  src a ha := by
    rcases List.mem_append.1 ha with h1 | h1
    · rcases h.src a h1 with h2 | h2
      · exact Or.inl (List.mem_append_left _ h2)
      · exact Or.inr h2
    · exact Or.inl (List.mem_append_right _ h1)
  live a ha := by
    by_cases h1 : a ∈ L ∨ H.next ≤ a
    · rw [h.live a h1, List.mem_append]
      constructor
      · exact Or.inl
      · rintro (h2 | h2)
        · exact h2
        · rcases h1 with h1 | h1
          · exact absurd h1 (hd a h2)
          · exact absurd (w a (hl a h2)) (by omega)
    · have hR : a ∈ R := by
        rcases ha with h2 | h2
        · rcases List.mem_append.1 h2 with h3 | h3
          · exact absurd (Or.inl h3) h1
          · exact h3
        · exact absurd (Or.inr h2) h1
      push Not at h1
      rw [h.frame a h1.1 h1.2]
      exact ⟨fun _ => List.mem_append_right _ hR, fun _ => hl a hR⟩
  nodup := by
    rw [List.nodup_append]
    refine ⟨h.nodup, hn, ?_⟩
    rintro a ha b hb rfl
    rcases h.src a ha with h1 | h1
    · exact hd a hb h1
    · exact absurd (w a (hl a hb)) (by omega)
  bound a ha := by
    rcases List.mem_append.1 ha with h1 | h1
    · exact h.bound a h1
    · exact lt_of_lt_of_le (w a (hl a h1)) h.next_le

/-- The order of the owned blocks does not matter. -/
theorem Tr.perm {H L H' L' L1 L1'} (h : Tr H L H' L') (p : L.Perm L1) (p' : L'.Perm L1') :
    Tr H L1 H' L1' where
  next_le := h.next_le
  frame a ha := h.frame a (fun h1 => ha (p.mem_iff.1 h1))
  src a ha := by
    rcases h.src a (p'.mem_iff.2 ha) with h1 | h1
    · exact Or.inl (p.mem_iff.1 h1)
    · exact Or.inr h1
  live a ha := by
    rw [← p'.mem_iff]
    exact h.live a (ha.imp_left p.mem_iff.2)
  nodup := p'.nodup_iff.1 h.nodup
  bound a ha := h.bound a (p'.mem_iff.2 ha)

theorem AllK.frame {k H L H' L' R} (h : AllK k H R) (t : Tr H L H' L') (w : WF H)
    (hd : ∀ a ∈ R, a ∉ L) : AllK k H' R := by
  intro a ha
  obtain ⟨b, hb, hk⟩ := h a ha
  refine ⟨b, ?_, hk⟩
  rw [t.frame a (hd a ha) (w a (by simp [hb])), hb]

/-! ### The primitives -/

theorem alloc_tr {H : Heap} (w : WF H) (b : Block) :
    Tr H [] (H.alloc b).2 [(H.alloc b).1] ∧ (H.alloc b).2.mem (H.alloc b).1 = some b := by
  refine ⟨⟨?_, ?_, ?_, ?_, ?_, ?_⟩, ?_⟩
  · simp [Heap.alloc]
  · intro a _ ha
    simp [Heap.alloc, Nat.ne_of_lt ha]
  · intro a ha
    simp only [Heap.alloc, List.mem_singleton] at ha
    exact Or.inr (by omega)
  · intro a ha
    simp only [List.not_mem_nil, false_or] at ha
    simp only [Heap.alloc, List.mem_singleton]
    by_cases h : a = H.next
    · simp [h]
    · simp only [h, if_false, iff_false, not_not]
      by_contra h2
      exact absurd (w a h2) (by omega)
  · simp
  · intro a ha
    simp only [Heap.alloc, List.mem_singleton] at ha ⊢
    omega
  · simp [Heap.alloc]

theorem free_tr {H : Heap} {k : Kind} {a : Nat} (w : WF H) (h : AllK k H [a]) :
    ∃ H', H.free k a = .ok H' ∧ Tr H [a] H' [] := by
  obtain ⟨b, hb, hk⟩ := h a (by simp)
  refine ⟨H.put a none, by simp [Heap.free, hb, hk], ⟨le_rfl, ?_, by simp, ?_, by simp, by simp⟩⟩
  · intro c hc _
    simp only [List.mem_singleton] at hc
    simp [Heap.put, hc]
  · intro c hc
    simp only [List.mem_singleton, List.not_mem_nil, iff_false, not_not] at hc ⊢
    by_cases h : c = a
    · simp [Heap.put, h]
    · simp only [Heap.put, h, if_false]
      by_contra h2
      have := w c h2
      omega

theorem free_dead {H : Heap} {k : Kind} {a : Nat} (h : H.mem a = none) : H.free k a = .ub := by
  simp [Heap.free, h]

theorem write_tr {H : Heap} {L : List Nat} (w : WF H) (hl : ∀ a ∈ L, H.mem a ≠ none) (hn : L.Nodup)
    {a : Nat} {b : Block} (ha : a ∈ L) (hb : H.mem a = some b) (f : Block → Block) :
    ∃ H', H.write a f = .ok H' ∧ Tr H L H' L ∧ H'.mem a = some (f b) ∧
      ∀ c, c ≠ a → H'.mem c = H.mem c := by
  refine ⟨H.put a (some (f b)), by simp [Heap.write, Heap.deref, hb], ⟨le_rfl, ?_, fun _ h => Or.inl h,
    ?_, hn, fun c hc => w c (hl c hc)⟩, by simp [Heap.put], ?_⟩
  · intro c hc _
    have : c ≠ a := fun h => hc (h ▸ ha)
    simp [Heap.put, this]
  · intro c hc
    by_cases h : c = a
    · subst h; simp [Heap.put, ha]
    · simp only [Heap.put, h, if_false]
      constructor
      · intro h1
        rcases hc with h2 | h2
        · exact h2
        · exact absurd (w c h1) (by omega)
      · exact hl c
  · intro c hc
    simp [Heap.put, hc]

/-! ### Lists of blocks -/

theorem freeAll_tr {k : Kind} : ∀ {l : List Nat} {H : Heap}, WF H → l.Nodup → AllK k H l →
    ∃ H', freeAll k H l = .ok H' ∧ Tr H l H' []
  | [], H, w, _, _ => ⟨H, rfl, Tr.refl w (by simp) (by simp)⟩
  | a :: l, H, w, hn, hk => by
    obtain ⟨H1, e1, t1⟩ := free_tr w (a := a) (k := k) (fun c hc => hk c (by
      simp only [List.mem_singleton] at hc; simp [hc]))
    have hn' := List.nodup_cons.1 hn
    have hk1 : AllK k H l := fun c hc => hk c (List.mem_cons_of_mem _ hc)
    have hd : ∀ c ∈ l, c ∉ [a] := fun c hc h => by
      simp only [List.mem_singleton] at h
      exact hn'.1 (h ▸ hc)
    obtain ⟨H2, e2, t2⟩ := freeAll_tr (t1.wf w) hn'.2 (hk1.frame t1 w hd)
    refine ⟨H2, by simp [freeAll, e1, e2], ?_⟩
    exact ((t1.add w hk1.live hn'.2 hd).trans t2)

theorem freeAll_dead {k : Kind} : ∀ {l : List Nat} {H : Heap}, (∃ a ∈ l, H.mem a = none) →
    freeAll k H l = .ub
  | [], _, h => by simp at h
  | a :: l, H, h => by
    simp only [freeAll]
    cases e : H.free k a with
    | ub => rfl
    | throw s =>
      exfalso
      simp only [Heap.free] at e
      split at e
      · simp at e
      · split at e <;> simp at e
    | ok H1 =>
      have h1 : ∀ c, H.mem c = none → H1.mem c = none := by
        intro c hc
        simp only [Heap.free] at e
        split at e
        · simp at e
        · split at e
          · simp only [CRes.ok.injEq] at e
            subst e
            simp [Heap.put, hc]
          · simp at e
      simp only [CRes.ok_bind]
      obtain ⟨c, hc, hm⟩ := h
      rcases List.mem_cons.1 hc with rfl | hc
      · rw [free_dead hm] at e
        simp at e
      · exact freeAll_dead ⟨c, hc, h1 c hm⟩

/-- Contents of two lists of blocks agree. -/
def SameTags (H : Heap) (l : List Nat) (H' : Heap) (l' : List Nat) : Prop :=
  List.Forall₂ (fun a a' => (H.mem a).map Block.tag = (H'.mem a').map Block.tag) l l'

theorem SameTags.left {H H1 H' : Heap} : ∀ {l l' : List Nat}, SameTags H1 l H' l' →
    (∀ a ∈ l, H1.mem a = H.mem a) → SameTags H l H' l' := by
  intro l l' h
  unfold SameTags at *
  induction h with
  | nil => exact fun _ => .nil
  | cons h _ ih =>
    intro g
    refine .cons ?_ (ih fun a ha => g a (List.mem_cons_of_mem _ ha))
    rw [← g _ (by simp)]
    exact h

theorem cloneAll_tr : ∀ {l : List Nat} {H : Heap}, WF H → (∀ a ∈ l, H.mem a ≠ none) →
    ∃ ns H', cloneAll H l = .ok (ns, H') ∧ Tr H [] H' ns ∧ AllK .single H' ns ∧ SameTags H l H' ns
  | [], H, w, _ => ⟨[], H, rfl, Tr.refl w (by simp) (by simp), by simp [AllK], .nil⟩
  | a :: l, H, w, hl => by
    obtain ⟨b, hb⟩ := Option.ne_none_iff_exists'.1 (hl a (by simp))
    obtain ⟨t1, m1⟩ := alloc_tr w { b with kind := .single, size := 1 }
    generalize hq : H.alloc { b with kind := .single, size := 1 } = q at t1 m1
    obtain ⟨n, H1⟩ := q
    simp only at t1 m1
    have hl1 : ∀ c ∈ l, H1.mem c = H.mem c := fun c hc =>
      t1.frame c (by simp) (w c (hl c (List.mem_cons_of_mem _ hc)))
    obtain ⟨ns, H2, e2, t2, k2, s2⟩ := cloneAll_tr (l := l) (t1.wf w) (fun c hc => by
      rw [hl1 c hc]; exact hl c (List.mem_cons_of_mem _ hc))
    have hnl : H1.mem n ≠ none := by simp [m1]
    have t3 := t2.add (t1.wf w) (R := [n]) (by simpa using hnl) (by simp) (by simp)
    have fr : H2.mem n = H1.mem n := t2.frame n (by simp) (t1.bound n (by simp))
    refine ⟨n :: ns, H2, by simp [cloneAll, cloneSeg, Heap.deref, hb, hq, e2], ?_, ?_, ?_⟩
    · exact t1.trans (t3.perm (List.Perm.refl _) List.perm_append_comm)
    · intro c hc
      rcases List.mem_cons.1 hc with rfl | hc
      · exact ⟨_, fr.trans m1, rfl⟩
      · exact k2 c hc
    · exact .cons (by simp [hb, fr, m1]) (s2.left hl1)

/-! ### Curves -/

theorem curveAdd_tr {H : Heap} (w : WF H) {segs : List Nat} (hn : segs.Nodup)
    (hk : AllK .single H segs) (tag : Nat) :
    Tr H segs (curveAdd H segs tag).2 (curveAdd H segs tag).1 ∧
      AllK .single (curveAdd H segs tag).2 (curveAdd H segs tag).1 := by
  obtain ⟨t1, m1⟩ := alloc_tr w ⟨.single, 1, 0, tag⟩
  have t2 := (t1.add w hk.live hn (by simp)).perm (List.Perm.refl _) List.perm_append_comm
  refine ⟨by simpa [curveAdd] using t2, ?_⟩
  intro a ha
  simp only [curveAdd, List.mem_append, List.mem_singleton] at ha
  rcases ha with ha | ha
  · exact hk.frame t1 w (by simp) a ha
  · subst ha
    exact ⟨_, m1, rfl⟩

theorem curveBuild_tr : ∀ {ts : List Nat} {H : Heap} {segs : List Nat}, WF H → segs.Nodup →
    AllK .single H segs →
    Tr H segs (curveBuild H segs ts).2 (curveBuild H segs ts).1 ∧
      AllK .single (curveBuild H segs ts).2 (curveBuild H segs ts).1
  | [], H, segs, w, hn, hk => ⟨Tr.refl w hk.live hn, hk⟩
  | t :: ts, H, segs, w, hn, hk => by
    obtain ⟨t1, k1⟩ := curveAdd_tr w hn hk t
    obtain ⟨t2, k2⟩ := curveBuild_tr (ts := ts) (t1.wf w) t1.nodup k1
    exact ⟨t1.trans t2, k2⟩

theorem freeCurves_tr : ∀ {cs : List (List Nat)} {H : Heap}, WF H → cs.flatten.Nodup →
    AllK .single H cs.flatten → ∃ H', freeCurves H cs = .ok H' ∧ Tr H cs.flatten H' []
  | [], H, w, _, _ => ⟨H, rfl, Tr.refl w (by simp) (by simp)⟩
  | c :: cs, H, w, hn, hk => by
    rw [List.flatten_cons] at hn hk ⊢
    obtain ⟨n1, n2, nd⟩ := List.nodup_append.1 hn
    have k1 : AllK .single H c := fun a ha => hk a (List.mem_append_left _ ha)
    have k2 : AllK .single H cs.flatten := fun a ha => hk a (List.mem_append_right _ ha)
    have hd : ∀ a ∈ cs.flatten, a ∉ c := fun a h1 h2 => nd a h2 a h1 rfl
    obtain ⟨H1, e1, t1⟩ := freeAll_tr w n1 k1
    obtain ⟨H2, e2, t2⟩ := freeCurves_tr (t1.wf w) n2 (k2.frame t1 w hd)
    exact ⟨H2, by simp [freeCurves, curveFree, e1, e2], (t1.add w k2.live n2 hd).trans t2⟩

theorem copyCurves_tr : ∀ {cs : List (List Nat)} {H : Heap}, WF H →
    (∀ a ∈ cs.flatten, H.mem a ≠ none) → ∃ ns H', copyCurves H cs = .ok (ns, H') ∧
      Tr H [] H' ns.flatten ∧ AllK .single H' ns.flatten ∧ SameTags H cs.flatten H' ns.flatten
  | [], H, w, _ => ⟨[], H, rfl, Tr.refl w (by simp) (by simp), by simp [AllK], .nil⟩
  | c :: cs, H, w, hl => by
    rw [List.flatten_cons] at hl
    obtain ⟨n, H1, e1, t1, k1, s1⟩ := cloneAll_tr w fun a ha => hl a (List.mem_append_left _ ha)
    have hl1 : ∀ a ∈ cs.flatten, H1.mem a = H.mem a := fun a ha =>
      t1.frame a (by simp) (w a (hl a (List.mem_append_right _ ha)))
    obtain ⟨ns, H2, e2, t2, k2, s2⟩ := copyCurves_tr (cs := cs) (t1.wf w) (fun a ha => by
      rw [hl1 a ha]; exact hl a (List.mem_append_right _ ha))
    refine ⟨n :: ns, H2, by simp [copyCurves, e1, e2], ?_, ?_, ?_⟩
    · rw [List.flatten_cons]
      exact t1.trans ((t2.add (t1.wf w) k1.live t1.nodup (by simp)).perm (List.Perm.refl _)
        List.perm_append_comm)
    · intro a ha
      rw [List.flatten_cons] at ha
      rcases List.mem_append.1 ha with ha | ha
      · exact k1.frame t2 (t1.wf w) (by simp) a ha
      · exact k2 a ha
    · simp only [List.flatten_cons]
      refine List.rel_append (R := fun a a' => (H.mem a).map Block.tag = (H2.mem a').map Block.tag)
        ?_ (s2.left hl1)
      have : ∀ a ∈ n, H2.mem a = H1.mem a := fun a ha => t2.frame a (by simp) (t1.bound a ha)
      have h := s1
      unfold SameTags at h
      clear s1 e1 e2 t1 k1 hl1 hl t2 k2 s2
      induction h with
      | nil => exact .nil
      | cons h _ ih =>
        refine .cons ?_ (ih fun a ha => this a (List.mem_cons_of_mem _ ha))
        rw [this _ (by simp)]
        exact h

theorem pushCurve_tr {H : Heap} (w : WF H) {cs : List (List Nat)} (cap cap' : Nat) {c : List Nat}
    (hn : cs.flatten.Nodup) (hk : AllK .single H cs.flatten) (hc : ∀ a ∈ c, H.mem a ≠ none) :
    ∃ cs' k H', pushCurve H cs cap cap' c = .ok (cs', k, H') ∧ Tr H cs.flatten H' cs'.flatten ∧
      AllK .single H' cs'.flatten := by
  obtain ⟨n, H1, e1, t1, k1, -⟩ := cloneAll_tr w hc
  have w1 := t1.wf w
  have t1' := t1.add w hk.live hn (by simp)
  have hk1 := hk.frame t1 w (by simp)
  have dn : ∀ a ∈ n, a ∉ cs.flatten := fun a h1 h2 => by
    rcases t1.src a h1 with h | h
    · simp at h
    · exact absurd (w a (hk.live a h2)) (by omega)
  by_cases h : cs.length < cap
  · refine ⟨cs ++ [n], cap, H1, by simp [pushCurve, e1, h], ?_, ?_⟩
    · have : (cs ++ [n]).flatten = cs.flatten ++ n := by simp
      rw [this]
      exact t1'.perm (by simp) List.perm_append_comm
    · intro a ha
      simp only [List.flatten_append, List.flatten_cons, List.flatten_nil, List.append_nil,
        List.mem_append] at ha
      rcases ha with ha | ha
      · exact hk1 a ha
      · exact k1 a ha
  · obtain ⟨cs2, H2, e2, t2, k2, -⟩ := copyCurves_tr w1 hk1.live
    have w2 := t2.wf w1
    have hk2 := hk1.frame t2 w1 (by simp)
    have kn2 := k1.frame t2 w1 (by simp)
    obtain ⟨H3, e3, t3⟩ := freeCurves_tr w2 hn hk2
    have w3 := t3.wf w2
    have d2 : ∀ a ∈ cs2.flatten, a ∉ cs.flatten := fun a h1 h2 => by
      rcases t2.src a h1 with h | h
      · simp at h
      · exact absurd (w1 a (hk1.live a h2)) (by omega)
    have d2n : ∀ a ∈ n, a ∉ cs2.flatten := fun a h1 h2 => by
      rcases t2.src a h2 with h | h
      · simp at h
      · exact absurd (w1 a (k1.live a h1)) (by omega)
    have nd : (cs2.flatten ++ n).Nodup := by
      rw [List.nodup_append]
      exact ⟨t2.nodup, t1.nodup, fun a h1 b h2 e => d2n b h2 (e ▸ h1)⟩
    refine ⟨cs2 ++ [n], cap', H3, by simp [pushCurve, e1, h, e2, e3], ?_, ?_⟩
    · have : (cs2 ++ [n]).flatten = cs2.flatten ++ n := by simp
      rw [this]
      have t1'' : Tr H cs.flatten H1 (n ++ cs.flatten) := t1'.perm (by simp) (List.Perm.refl _)
      have t2' : Tr H1 (n ++ cs.flatten) H2 (cs2.flatten ++ (n ++ cs.flatten)) := by
        simpa using t2.add w1 (R := n ++ cs.flatten) (fun a ha => by
          rcases List.mem_append.1 ha with h | h
          · exact k1.live a h
          · exact hk1.live a h) t1'.nodup (by simp)
      have t3' : Tr H2 (cs.flatten ++ (cs2.flatten ++ n)) H3 (cs2.flatten ++ n) := by
        simpa using t3.add w2 (R := cs2.flatten ++ n) (fun a ha => by
          rcases List.mem_append.1 ha with h | h
          · exact k2.live a h
          · exact kn2.live a h) nd (fun a ha h2 => by
            rcases List.mem_append.1 ha with h | h
            · exact d2 a h h2
            · exact dn a h h2)
      refine (t1''.trans t2').trans (t3'.perm ?_ (List.Perm.refl _))
      rw [← List.append_assoc cs2.flatten]
      exact List.perm_append_comm
    · intro a ha
      simp only [List.flatten_append, List.flatten_cons, List.flatten_nil, List.append_nil,
        List.mem_append] at ha
      rcases ha with ha | ha
      · exact k2.frame t3 w2 d2 a ha
      · exact kn2.frame t3 w2 dn a ha

theorem genParse_tr {H : Heap} (w : WF H) {cs : List (List Nat)} (cap cap' : Nat) (tags : List Nat)
    (acc : Bool) (hn : cs.flatten.Nodup) (hk : AllK .single H cs.flatten) :
    ∃ cs' k H', genParse H cs cap cap' tags acc = .ok (cs', k, H') ∧ Tr H cs.flatten H' cs'.flatten ∧
      AllK .single H' cs'.flatten := by
  obtain ⟨t1, k1⟩ := curveBuild_tr (ts := tags) (H := H) (segs := []) w (by simp) (by simp [AllK])
  generalize hq : curveBuild H [] tags = q at t1 k1
  obtain ⟨c, H1⟩ := q
  simp only at t1 k1
  have w1 := t1.wf w
  have hk1 := hk.frame t1 w (by simp)
  have dc : ∀ a ∈ c, a ∉ cs.flatten := fun a h1 h2 => by
    rcases t1.src a h1 with h | h
    · simp at h
    · exact absurd (w a (hk.live a h2)) (by omega)
  have key : ∃ cs' k H2, (if acc then pushCurve H1 cs cap cap' c else pure (cs, cap, H1)) =
      .ok (cs', k, H2) ∧ Tr H1 cs.flatten H2 cs'.flatten ∧ AllK .single H2 cs'.flatten := by
    cases acc with
    | true => simpa using pushCurve_tr w1 cap cap' hn hk1 k1.live
    | false => exact ⟨cs, cap, H1, rfl, Tr.refl w1 hk1.live hn, hk1⟩
  obtain ⟨cs', k, H2, e2, t2, k2⟩ := key
  have w2 := t2.wf w1
  have kc2 := k1.frame t2 w1 dc
  obtain ⟨H3, e3, t3⟩ := freeAll_tr w2 t1.nodup kc2
  have d3 : ∀ a ∈ cs'.flatten, a ∉ c := fun a h1 h2 => by
    rcases t2.src a h1 with h | h
    · exact dc a h2 h
    · exact absurd (w1 a (k1.live a h2)) (by omega)
  refine ⟨cs', k, H3, ?_, ?_, k2.frame t3 w2 d3⟩
  · simp only [genParse, hq]
    cases acc with
    | true =>
      simp only [if_true] at e2
      simp [e2, curveFree, e3]
    | false =>
      simp only [Bool.false_eq_true, if_false, CRes.pure_eq, CRes.ok.injEq, Prod.mk.injEq] at e2
      obtain ⟨rfl, rfl, rfl⟩ := e2
      simp [curveFree, e3]
  · have a1 : Tr H cs.flatten H1 (c ++ cs.flatten) := by
      simpa using t1.add w hk.live hn (by simp)
    have a2 : Tr H1 (c ++ cs.flatten) H2 (c ++ cs'.flatten) :=
      (t2.add w1 k1.live t1.nodup dc).perm List.perm_append_comm List.perm_append_comm
    have a3 : Tr H2 (c ++ cs'.flatten) H3 cs'.flatten := by
      simpa using t3.add w2 k2.live t2.nodup d3
    exact (a1.trans a2).trans a3

/-! ### Collision maps -/

/-- All areas point to map `me`. -/
def AllP (me : Nat) (H : Heap) (l : List Nat) : Prop :=
  ∀ a ∈ l, ∃ b, H.mem a = some b ∧ b.kind = .single ∧ b.parent = me

theorem AllP.allK {me H l} (h : AllP me H l) : AllK .single H l := fun a ha => by
  obtain ⟨b, h1, h2, -⟩ := h a ha
  exact ⟨b, h1, h2⟩

theorem AllP.frame {me H L H' L' R} (h : AllP me H R) (t : Tr H L H' L') (w : WF H)
    (hd : ∀ a ∈ R, a ∉ L) : AllP me H' R := by
  intro a ha
  obtain ⟨b, hb, hk⟩ := h a ha
  refine ⟨b, ?_, hk⟩
  rw [t.frame a (hd a ha) (w a (by simp [hb])), hb]

theorem areasNew_tr (me : Nat) (tag : Nat → Nat) : ∀ {ts : List Nat} {H : Heap}, WF H →
    Tr H [] (areasNew me tag H ts).2 (areasNew me tag H ts).1 ∧
      AllP me (areasNew me tag H ts).2 (areasNew me tag H ts).1 ∧
      (areasNew me tag H ts).1.length = ts.length
  | [], H, w => ⟨Tr.refl w (by simp) (by simp), by simp [AllP, areasNew], rfl⟩
  | t :: ts, H, w => by
    obtain ⟨t1, m1⟩ := alloc_tr w ⟨.single, 1, me, tag t⟩
    simp only [areasNew]
    generalize H.alloc ⟨.single, 1, me, tag t⟩ = q at t1 m1 ⊢
    obtain ⟨a, H1⟩ := q
    simp only at t1 m1 ⊢
    obtain ⟨t2, p2, l2⟩ := areasNew_tr me tag (ts := ts) (t1.wf w)
    generalize areasNew me tag H1 ts = r at t2 p2 l2 ⊢
    obtain ⟨as, H2⟩ := r
    simp only at t2 p2 l2 ⊢
    have hl : ∀ c ∈ [a], H1.mem c ≠ none := by
      intro c hc; simp only [List.mem_singleton] at hc; subst hc; simp [m1]
    refine ⟨t1.trans ((t2.add (t1.wf w) hl (by simp) (by simp)).perm (List.Perm.refl _)
      List.perm_append_comm), ?_, by simp [l2]⟩
    intro c hc
    rcases List.mem_cons.1 hc with rfl | hc
    · exact ⟨_, (t2.frame c (by simp) (t1.bound c (by simp))).trans m1, rfl, rfl⟩
    · exact p2 c hc

theorem areasCopy_tr (me : Nat) : ∀ {l : List Nat} {H : Heap}, WF H → (∀ a ∈ l, H.mem a ≠ none) →
    ∃ ns H', areasCopy me H l = .ok (ns, H') ∧ Tr H [] H' ns ∧ AllP me H' ns ∧ SameTags H l H' ns
  | [], H, w, _ => ⟨[], H, rfl, Tr.refl w (by simp) (by simp), by simp [AllP], .nil⟩
  | a :: l, H, w, hl => by
    obtain ⟨b, hb⟩ := Option.ne_none_iff_exists'.1 (hl a (by simp))
    obtain ⟨t0, m0⟩ := alloc_tr w { b with kind := .single, size := 1 }
    generalize hq : H.alloc { b with kind := .single, size := 1 } = q at t0 m0
    obtain ⟨n, H0⟩ := q
    simp only at t0 m0
    have hl0 : ∀ c ∈ [n], H0.mem c ≠ none := by
      intro c hc; simp only [List.mem_singleton] at hc; subst hc; simp [m0]
    obtain ⟨H1, e1, t1', m1, -⟩ := write_tr (t0.wf w) hl0 (by simp) (a := n) (by simp) m0
      (fun b => { b with parent := me })
    have t1 : Tr H [] H1 [n] := t0.trans t1'
    have hl1 : ∀ c ∈ l, H1.mem c = H.mem c := fun c hc =>
      t1.frame c (by simp) (w c (hl c (List.mem_cons_of_mem _ hc)))
    obtain ⟨ns, H2, e2, t2, k2, s2⟩ := areasCopy_tr me (l := l) (t1.wf w) (fun c hc => by
      rw [hl1 c hc]; exact hl c (List.mem_cons_of_mem _ hc))
    have hnl : H1.mem n ≠ none := by simp [m1]
    have t3 := t2.add (t1.wf w) (R := [n]) (by simpa using hnl) (by simp) (by simp)
    have fr : H2.mem n = H1.mem n := t2.frame n (by simp) (t1.bound n (by simp))
    refine ⟨n :: ns, H2, by simp [areasCopy, Heap.deref, hb, hq, e1, e2], ?_, ?_, ?_⟩
    · exact t1.trans (t3.perm (List.Perm.refl _) List.perm_append_comm)
    · intro c hc
      rcases List.mem_cons.1 hc with rfl | hc
      · exact ⟨_, fr.trans m1, rfl, rfl⟩
      · exact k2 c hc
    · exact .cons (by simp [hb, fr, m1]) (s2.left hl1)

/-! ### Node managers -/

theorem elem_ok {H : Heap} {a n : Nat} {b : Block} (hb : H.mem a = some b) (hn : n < b.size) :
    H.elem a n = .ok () := by
  simp [Heap.elem, hb, hn]

theorem touchAll_ok {κ : Type} {H : Heap} {a : Nat} {b : Block} (hb : H.mem a = some b)
    {ix : κ → CRes Nat} : ∀ {ks : List κ}, (∀ k ∈ ks, ∃ i, ix k = .ok i ∧ i < b.size) →
    touchAll H a ix ks = .ok ()
  | [], _ => rfl
  | k :: ks, h => by
    obtain ⟨i, e, hi⟩ := h k (by simp)
    have := touchAll_ok (a := a) hb (ix := ix) (ks := ks) fun c hc => h c (List.mem_cons_of_mem _ hc)
    simp [touchAll, e, elem_ok hb hi, this]

theorem initNodes_ok {H : Heap} {a w h : Nat} {b : Block} (k : MKind) (hb : H.mem a = some b)
    (hs : b.size = k.count w h) (hf : w * h * 64 < 2 ^ 32) (hw : w < 2 ^ 31) (hh : h < 2 ^ 31) :
    k.initNodes H a w h = .ok () := by
  cases k with
  | grid =>
    refine touchAll_ok hb ?_
    rintro ⟨x, y⟩ hm
    obtain ⟨hx, hy⟩ := mem_keys2.1 hm
    have l := lin_lt hx hy
    refine ⟨_, rfl, ?_⟩
    have e : GMgr.index w x y = y * w + x := wrapU_lt (by omega)
    rw [hs, MKind.count, wrapU_lt (by omega), e]
    exact l
  | space =>
    refine touchAll_ok hb ?_
    rintro ⟨x, y, t⟩ hm
    obtain ⟨hx, hy, ht⟩ := mem_keys3.1 hm
    have l := lin3_lt hx hy ht
    refine ⟨wrapU (y * w + x + t * w * h), ?_, ?_⟩
    · simp only [ssIndex]
      rw [if_neg (by omega)]
    · rw [hs, MKind.count, wrapU_lt (by omega), wrapU_lt (by omega)]
      exact l
  | directional =>
    refine touchAll_ok hb ?_
    rintro ⟨x, y, t, f⟩ hm
    obtain ⟨hx, hy, ht⟩ := mem_keys4.1 hm
    have l := lin3_lt hx hy ht
    have e32 : wrapU (w * h * 32) = w * h * 32 := wrapU_lt (by omega)
    refine ⟨wrapU (y * w + x + t * w * h + (if f then 0 else wrapU (w * h * 32))), ?_, ?_⟩
    · simp only [dsIndex]
      have ew : toI32 w = (w : Int) := by
        unfold toI32; rw [if_pos (by omega)]
      have eh : toI32 h = (h : Int) := by
        unfold toI32; rw [if_pos (by omega)]
      have e3 : toI32 32 = 32 := by decide
      rw [if_neg (by rw [ew, eh, e3]; omega)]
      simp
    · rw [hs, MKind.count, e32]
      have h2 : wrapU (2 * (w * h * 32)) = 2 * (w * h * 32) := wrapU_lt (by omega)
      rw [h2]
      have h3 : y * w + x + t * w * h + (if f = true then 0 else w * h * 32) < 2 * (w * h * 32) := by
        split <;> omega
      rw [wrapU_lt (by omega)]
      exact h3

theorem initMap_tr {H : Heap} (wf : WF H) (k : MKind) {data : Option Nat} {w0 h0 : Nat}
    (hd : ∀ a, data = some a → ∃ b, H.mem a = some b ∧ b.kind = .array ∧ b.size = k.count w0 h0)
    {w h : Nat} (hf : w * h * 64 < 2 ^ 32) (hw : w < 2 ^ 31) (hh : h < 2 ^ 31) :
    ∃ a H', initMap k H data w h (decide (w0 ≠ w) || decide (h0 ≠ h)) = .ok (some a, H') ∧
      Tr H data.toList H' [a] ∧
      (∃ b, H'.mem a = some b ∧ b.kind = .array ∧ b.size = k.count w h) ∧
      (data = some a ↔ data.isSome ∧ w0 = w ∧ h0 = h) ∧ (data = some a → H' = H) := by
  have fin : ∀ {H1 : Heap}, WF H1 → ∃ b, (H1.alloc ⟨.array, k.count w h, 0, 0⟩).2.mem H1.next =
      some b ∧ b.kind = .array ∧ b.size = k.count w h := fun w1 => by
    obtain ⟨-, m⟩ := alloc_tr w1 ⟨.array, k.count w h, 0, 0⟩
    exact ⟨_, m, rfl, rfl⟩
  cases data with
  | none =>
    obtain ⟨t1, m1⟩ := alloc_tr wf ⟨.array, k.count w h, 0, 0⟩
    refine ⟨H.next, (H.alloc ⟨.array, k.count w h, 0, 0⟩).2, ?_, by simpa [Heap.alloc] using t1,
      fin wf, by simp, by simp⟩
    have e := initNodes_ok (H := (H.alloc ⟨.array, k.count w h, 0, 0⟩).2)
      (a := (H.alloc ⟨.array, k.count w h, 0, 0⟩).1) k m1 rfl hf hw hh
    simp only [Heap.alloc] at e
    simp [initMap, Heap.alloc, e]
  | some a =>
    obtain ⟨b, hb, hk, hs⟩ := hd a rfl
    have hK : AllK .array H [a] := by
      intro c hc; simp only [List.mem_singleton] at hc; subst hc; exact ⟨b, hb, hk⟩
    by_cases hr : w0 = w ∧ h0 = h
    · obtain ⟨rfl, rfl⟩ := hr
      have e := initNodes_ok (H := H) (a := a) k hb hs hf hw hh
      exact ⟨a, H, by simp [initMap, e], Tr.refl wf hK.live (by simp), ⟨b, hb, hk, hs⟩, by simp,
        fun _ => rfl⟩
    · obtain ⟨H1, e1, t1⟩ := free_tr wf hK
      have w1 := t1.wf wf
      obtain ⟨t2, m2⟩ := alloc_tr w1 ⟨.array, k.count w h, 0, 0⟩
      have e := initNodes_ok (H := (H1.alloc ⟨.array, k.count w h, 0, 0⟩).2)
        (a := (H1.alloc ⟨.array, k.count w h, 0, 0⟩).1) k m2 rfl hf hw hh
      have hne : a ≠ H1.next := by
        have := wf a (by simp [hb])
        have := t1.next_le
        omega
      refine ⟨H1.next, (H1.alloc ⟨.array, k.count w h, 0, 0⟩).2, ?_,
        by simpa [Heap.alloc] using t1.trans t2, fin w1, ?_, ?_⟩
      · have hr' : (decide (w0 ≠ w) || decide (h0 ≠ h)) = true := by
          simp only [ne_eq, Bool.or_eq_true, decide_eq_true_eq]
          by_contra hc
          push Not at hc
          exact hr hc
        simp only [Heap.alloc] at e
        simp only [hr', initMap]
        simp [e1, Heap.alloc, e]
      · simp only [Option.some.injEq, Option.isSome_some, true_and]
        exact ⟨fun h => absurd h hne, fun h => absurd h hr⟩
      · intro h
        exact absurd (Option.some.inj h) hne

/-! ### The dynamic manager -/

/-- The pointers of one entry of the chunk table. -/
def cptrs (c : Option (Nat × Nat)) : List Nat := c.toList.flatMap fun p => [p.1, p.2]

/-- Every chunk in the table consists of the chunk and an array of 65536 cells. -/
def ChunksOk (H : Heap) (cs : List (Option (Nat × Nat))) : Prop :=
  ∀ p, some p ∈ cs → (∃ b, H.mem p.1 = some b ∧ b.kind = .single) ∧
    ∃ b, H.mem p.2 = some b ∧ b.kind = .array ∧ b.size = 2 * (32 * 32 * 32)

theorem mem_cptrs {cs : List (Option (Nat × Nat))} {a : Nat} :
    a ∈ cs.flatMap cptrs ↔ ∃ p, some p ∈ cs ∧ (a = p.1 ∨ a = p.2) := by
  simp only [List.mem_flatMap, cptrs]
  constructor
  · rintro ⟨c, hc, h⟩
    cases c with
    | none => simp at h
    | some p => exact ⟨p, hc, by simpa using h⟩
  · rintro ⟨p, hp, h⟩
    exact ⟨some p, hp, by simpa using h⟩

theorem ChunksOk.live {H cs} (h : ChunksOk H cs) : ∀ a ∈ cs.flatMap cptrs, H.mem a ≠ none := by
  intro a ha
  obtain ⟨p, hp, h1⟩ := mem_cptrs.1 ha
  obtain ⟨⟨b, hb, -⟩, ⟨c, hc, -⟩⟩ := h p hp
  rcases h1 with rfl | rfl
  · simp [hb]
  · simp [hc]

theorem ChunksOk.frame {H L H' L' cs} (h : ChunksOk H cs) (t : Tr H L H' L') (w : WF H)
    (hd : ∀ a ∈ cs.flatMap cptrs, a ∉ L) : ChunksOk H' cs := by
  intro p hp
  obtain ⟨⟨b, hb, h1⟩, ⟨c, hc, h2⟩⟩ := h p hp
  refine ⟨⟨b, ?_, h1⟩, ⟨c, ?_, h2⟩⟩
  · rw [t.frame _ (hd _ (mem_cptrs.2 ⟨p, hp, Or.inl rfl⟩)) (w _ (by simp [hb])), hb]
  · rw [t.frame _ (hd _ (mem_cptrs.2 ⟨p, hp, Or.inr rfl⟩)) (w _ (by simp [hc])), hc]

theorem pairFree_tr {H : Heap} (w : WF H) {c d : Nat} {k : Kind} (hn : c ≠ d)
    (hc : ∃ b, H.mem c = some b ∧ b.kind = .single) (hd : ∃ b, H.mem d = some b ∧ b.kind = k) :
    ∃ b H1 H2, H.deref c = .ok b ∧ H.free k d = .ok H1 ∧
      H1.free .single c = .ok H2 ∧ Tr H [c, d] H2 [] := by
  obtain ⟨b, hb, hbk⟩ := hc
  obtain ⟨b', hb', hbk'⟩ := hd
  have kc : AllK .single H [c] := by
    intro x hx; simp only [List.mem_singleton] at hx; subst hx; exact ⟨b, hb, hbk⟩
  have kd : AllK k H [d] := by
    intro x hx; simp only [List.mem_singleton] at hx; subst hx; exact ⟨b', hb', hbk'⟩
  obtain ⟨H1, e1, t1⟩ := free_tr w kd
  have dj : ∀ a ∈ [c], a ∉ [d] := by
    intro a ha h; simp only [List.mem_singleton] at ha h; exact hn (ha ▸ h)
  obtain ⟨H2, e2, t2⟩ := free_tr (t1.wf w) (kc.frame t1 w dj)
  refine ⟨b, H1, H2, by simp [Heap.deref, hb], e1, e2, ?_⟩
  exact ((t1.add w kc.live (by simp) dj).trans t2).perm (List.Perm.swap _ _ _) (List.Perm.refl _)

theorem clearChunks_tr : ∀ {cs : List (Option (Nat × Nat))} {H : Heap}, WF H →
    (cs.flatMap cptrs).Nodup → ChunksOk H cs →
    ∃ H', clearChunks H cs = .ok H' ∧ Tr H (cs.flatMap cptrs) H' []
  | [], H, w, _, _ => ⟨H, rfl, Tr.refl w (by simp) (by simp)⟩
  | c :: cs, H, w, hn, hk => by
    rw [List.flatMap_cons] at hn ⊢
    obtain ⟨n1, n2, nd⟩ := List.nodup_append.1 hn
    have k2 : ChunksOk H cs := fun p hp => hk p (List.mem_cons_of_mem _ hp)
    have hd : ∀ a ∈ cs.flatMap cptrs, a ∉ cptrs c := fun a h1 h2 => nd a h2 a h1 rfl
    have key : ∃ H1, chunkFree H c = .ok H1 ∧ Tr H (cptrs c) H1 [] := by
      cases c with
      | none => exact ⟨H, rfl, Tr.refl w (by simp [cptrs]) (by simp [cptrs])⟩
      | some p =>
        obtain ⟨c, d⟩ := p
        obtain ⟨hc, hd'⟩ := hk (c, d) (by simp)
        have hne : c ≠ d := by
          simp [cptrs] at n1; exact n1
        obtain ⟨b0, H1, H2, e0, e1, e2, t⟩ := pairFree_tr w hne hc
          (by obtain ⟨b, h1, h2, -⟩ := hd'; exact ⟨b, h1, h2⟩)
        exact ⟨H2, by simp [chunkFree, e0, e1, e2], by simpa [cptrs] using t⟩
    obtain ⟨H1, e1, t1⟩ := key
    obtain ⟨H2, e2, t2⟩ := clearChunks_tr (t1.wf w) n2 (k2.frame t1 w hd)
    exact ⟨H2, by simp [clearChunks, e1, e2], (t1.add w k2.live n2 hd).trans t2⟩

theorem pairNew_tr {H : Heap} (w : WF H) (b1 b2 : Block) :
    Tr H [] ((H.alloc b1).2.alloc b2).2 [H.next, H.next + 1] ∧
      ((H.alloc b1).2.alloc b2).2.mem H.next = some b1 ∧
      ((H.alloc b1).2.alloc b2).2.mem (H.next + 1) = some b2 := by
  obtain ⟨t1, m1⟩ := alloc_tr w b1
  obtain ⟨t2, m2⟩ := alloc_tr (t1.wf w) b2
  have hl : ∀ c ∈ [(H.alloc b1).1], (H.alloc b1).2.mem c ≠ none := by
    intro c hc; simp only [List.mem_singleton] at hc; subst hc; simp [m1]
  have t3 := (t2.add (t1.wf w) hl (by simp) (by simp)).perm (List.Perm.refl _)
    List.perm_append_comm
  refine ⟨by simpa [Heap.alloc] using t1.trans t3, by simp [Heap.alloc], by simp [Heap.alloc]⟩

theorem flatMap_set_perm {cs : List (Option (Nat × Nat))} {n : Nat} (h : cs[n]? = some none)
    (p : Nat × Nat) : ((cs.set n (some p)).flatMap cptrs).Perm ([p.1, p.2] ++ cs.flatMap cptrs) := by
  induction cs generalizing n with
  | nil => simp at h
  | cons c cs ih =>
    cases n with
    | zero =>
      simp only [List.getElem?_cons_zero, Option.some.injEq] at h
      subst h
      simp [cptrs]
    | succ n =>
      simp only [List.getElem?_cons_succ] at h
      rw [List.set_cons_succ, List.flatMap_cons, List.flatMap_cons]
      refine ((ih h).append_left _).trans ?_
      rw [← List.append_assoc, ← List.append_assoc]
      exact List.perm_append_comm.append_right _

theorem dynLookup_tr {H : Heap} (w : WF H) {cs : List (Option (Nat × Nat))} (n i : Nat)
    (hn : (cs.flatMap cptrs).Nodup) (hk : ChunksOk H cs) (hi : i < 2 * (32 * 32 * 32)) :
    (cs.length ≤ n ∧ ∃ e, dynLookup H cs n i = .throw e) ∨
    ∃ p cs' H', dynLookup H cs n i = .ok (p, cs', H') ∧
      Tr H (cs.flatMap cptrs) H' (cs'.flatMap cptrs) ∧ ChunksOk H' cs' ∧ cs'.length = cs.length ∧
      (∃ c, cs'[n]? = some (some (c, p.1))) ∧ p.2 = i := by
  unfold dynLookup
  split
  · rename_i h
    exact Or.inl ⟨by simpa using h, _, rfl⟩
  · rename_i c d h
    right
    obtain ⟨⟨b, hb, -⟩, ⟨b', hb', -, hs⟩⟩ := hk (c, d) (List.mem_of_getElem? h)
    exact ⟨(d, i), cs, H, by simp [Heap.deref, hb, elem_ok hb' (by omega : i < b'.size)],
      Tr.refl w hk.live hn, hk, rfl, ⟨c, h⟩, rfl⟩
  · rename_i h
    right
    obtain ⟨t, m1, m2⟩ := pairNew_tr w ⟨.single, 1, 0, 0⟩ ⟨.array, 2 * (32 * 32 * 32), 0, 0⟩
    have hlt : n < cs.length := by
      by_contra hc
      rw [List.getElem?_eq_none (by omega)] at h
      simp at h
    generalize hH : (Heap.alloc (H.alloc ⟨.single, 1, 0, 0⟩).2
      ⟨.array, 2 * (32 * 32 * 32), 0, 0⟩).2 = H2 at t m1 m2
    have hchunk : chunkNew H = ((H.next, H.next + 1), H2) := by
      simp only [chunkNew]
      rw [← hH]
      simp [Heap.alloc]
    refine ⟨(H.next + 1, i), cs.set n (some (H.next, H.next + 1)), H2, ?_, ?_, ?_, by simp, ?_, rfl⟩
    · rw [hchunk]
      simp [Heap.deref, m1, elem_ok m2 hi]
    · exact (t.add w hk.live hn (by simp)).perm (List.Perm.refl _)
        (flatMap_set_perm h (H.next, H.next + 1)).symm
    · intro p hp
      rcases List.mem_or_eq_of_mem_set hp with h1 | h1
      · exact hk.frame t w (by simp) p h1
      · simp only [Option.some.injEq] at h1
        subst h1
        exact ⟨⟨_, m1, rfl⟩, ⟨_, m2, rfl, rfl⟩⟩
    · exact ⟨H.next, by simp [hlt]⟩

/-! ### `AStar` -/

/-- The `OpenList` and its array. -/
def OpenOk (H : Heap) (p : Nat × Nat) : Prop :=
  p.1 ≠ p.2 ∧ (∃ b, H.mem p.1 = some b ∧ b.kind = .single) ∧ ∃ b, H.mem p.2 = some b ∧ b.kind = .malloc

theorem openNew_tr {H : Heap} (wf : WF H) (w h : Nat) :
    Tr H [] (openNew H w h).2 [(openNew H w h).1.1, (openNew H w h).1.2] ∧
      OpenOk (openNew H w h).2 (openNew H w h).1 := by
  obtain ⟨t, m1, m2⟩ := pairNew_tr wf ⟨.single, 1, 0, 0⟩ ⟨.malloc, w * h, 0, 0⟩
  refine ⟨by simpa [openNew, Heap.alloc] using t, ?_⟩
  refine ⟨by simp [openNew, Heap.alloc], ⟨_, m1, rfl⟩, ⟨_, m2, rfl⟩⟩

theorem openFree_tr {H : Heap} (wf : WF H) {p : Nat × Nat} (hp : OpenOk H p) :
    ∃ H', openFree H p = .ok H' ∧ Tr H [p.1, p.2] H' [] := by
  obtain ⟨b0, H1, H2, e0, e1, e2, t⟩ := pairFree_tr wf hp.1 hp.2.1 hp.2.2
  exact ⟨H2, by simp [openFree, e0, e1, e2], t⟩

theorem OpenOk.live {H p} (h : OpenOk H p) : ∀ a ∈ [p.1, p.2], H.mem a ≠ none := by
  obtain ⟨-, ⟨b, hb, -⟩, ⟨c, hc, -⟩⟩ := h
  intro a ha
  simp only [List.mem_cons, List.not_mem_nil, or_false] at ha
  rcases ha with rfl | rfl
  · simp [hb]
  · simp [hc]

theorem astarSet_tr {H : Heap} (wf : WF H) {nodes : Option (Nat × Nat)}
    (hp : ∀ p, nodes = some p → OpenOk H p) (cur : Option (Nat × Nat)) (w h : Nat) :
    ∃ p H', astarSet H nodes cur w h = .ok (some p, H') ∧
      Tr H (cptrs nodes) H' [p.1, p.2] ∧ OpenOk H' p := by
  cases nodes with
  | none =>
    obtain ⟨t, o⟩ := openNew_tr wf w h
    refine ⟨(openNew H w h).1, (openNew H w h).2, ?_, by simpa [cptrs] using t, o⟩
    cases cur <;> rfl
  | some p =>
    have hp := hp p rfl
    have stay : Tr H (cptrs (some p)) H [p.1, p.2] := by
      simpa [cptrs] using Tr.refl wf hp.live (by simpa using hp.1)
    cases cur with
    | none => exact ⟨p, H, rfl, stay, hp⟩
    | some c =>
      by_cases hc : c.1 ≠ w ∨ c.2 ≠ h
      · obtain ⟨H1, e1, t1⟩ := openFree_tr wf hp
        obtain ⟨t, o⟩ := openNew_tr (t1.wf wf) w h
        refine ⟨(openNew H1 w h).1, (openNew H1 w h).2, ?_, by simpa [cptrs] using t1.trans t, o⟩
        simp [astarSet, hc, e1]
      · refine ⟨p, H, ?_, stay, hp⟩
        simp [astarSet, hc]

end PathPlanning.Own
