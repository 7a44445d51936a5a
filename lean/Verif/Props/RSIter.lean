import Verif.Props.RSFree

/-!
# C41: the poses a curve yields
-/

noncomputable section

namespace PathPlanning.RS
open Spec

/-! ### One segment -/

/-- The pose of a circle segment number `i`. -/
def Circ.poseAt (c : Circ) (i : Int) : Pose := (Circ.next { c with output := i }).1
/-- The pose of a line segment number `i`. -/
def Lin.poseAt (l : Lin) (i : Int) : Pose := (Lin.next { l with output := i }).1

/-- The poses a segment still has to give. -/
def Seg.rem : Seg → List Pose
  | .circ c => (List.range (c.steps - c.output + 1).toNat).map fun i : Nat => c.poseAt (c.output + i)
  | .line l => (List.range (l.segments - l.output).toNat).map fun i : Nat => l.poseAt (l.output + i)

theorem Seg.rem_next (s : Seg) (h : s.hasNext = true) : s.rem = s.next.1 :: s.next.2.rem := by
  cases s with
  | circ c =>
    simp only [Seg.hasNext, Circ.hasNext, decide_eq_true_eq] at h
    have e : (c.steps - c.output + 1).toNat = (c.steps - (c.output + 1) + 1).toNat + 1 := by omega
    simp only [Seg.rem, Seg.next]
    rw [e, List.range_succ_eq_map, List.map_cons, List.map_map]
    congr 1
    · simp [Circ.poseAt]
    · simp only [Circ.next]
      refine List.map_congr_left fun i _ => ?_
      simp only [Function.comp, Circ.poseAt, Circ.next]
      have : c.output + ((i + 1 : Nat) : Int) = c.output + 1 + (i : Int) := by push_cast; ring
      rw [Nat.succ_eq_add_one, this]
  | line l =>
    simp only [Seg.hasNext, Lin.hasNext, decide_eq_true_eq] at h
    have e : (l.segments - l.output).toNat = (l.segments - (l.output + 1)).toNat + 1 := by omega
    simp only [Seg.rem, Seg.next]
    rw [e, List.range_succ_eq_map, List.map_cons, List.map_map]
    congr 1
    · simp [Lin.poseAt]
    · simp only [Lin.next]
      refine List.map_congr_left fun i _ => ?_
      simp only [Function.comp, Lin.poseAt, Lin.next]
      have : l.output + ((i + 1 : Nat) : Int) = l.output + 1 + (i : Int) := by push_cast; ring
      rw [Nat.succ_eq_add_one, this]

theorem Seg.rem_nil (s : Seg) (h : s.hasNext = false) : s.rem = [] := by
  cases s with
  | circ c =>
    simp only [Seg.hasNext, Circ.hasNext, decide_eq_false_iff_not, not_le] at h
    have e : (c.steps - c.output + 1).toNat = 0 := by omega
    simp [Seg.rem, e]
  | line l =>
    simp only [Seg.hasNext, Lin.hasNext, decide_eq_false_iff_not, not_lt] at h
    have e : (l.segments - l.output).toNat = 0 := by omega
    simp [Seg.rem, e]

theorem Seg.reset_next (E : RSEnv) (s : Seg) : s.next.2.reset E = s.reset E := by cases s <;> rfl
theorem Seg.reset_reset (E : RSEnv) (s : Seg) : (s.reset E).reset E = s.reset E := by cases s <;> rfl

/-- A turn always gives at least two poses. -/
theorem Circ.rem_reset_ne (E : RSEnv) (c : Circ) : ((Seg.circ c).reset E).rem ≠ [] := by
  have h1 : 1 ≤ (c.reset E).steps := le_max_left _ _
  have h2 : (c.reset E).output = 0 := rfl
  simp only [Seg.reset, Seg.rem, h2, ne_eq, List.map_eq_nil_iff, List.range_eq_nil]
  omega

/-! ### A curve -/

/-- All poses of a list of segments, read from the start. -/
def allPoses (E : RSEnv) (segs : List Seg) : List Pose := segs.flatMap fun s => (s.reset E).rem

/-- The poses a curve still has to give. -/
def Curve.rem (E : RSEnv) (c : Curve) : List Pose :=
  (match c.seq[c.outNo]? with
    | some s => s.rem
    | none => []) ++ allPoses E (c.seq.drop (c.outNo + 1))

/-- Invariant: not past the end, and the last segment has poses. -/
structure Curve.Iter (E : RSEnv) (c : Curve) : Prop where
  lt : c.outNo < c.seq.length
  last : ∃ pre z, c.seq = pre ++ [z] ∧ (z.reset E).rem ≠ []

theorem allPoses_ne {E : RSEnv} {pre : List Seg} {z : Seg} (hz : (z.reset E).rem ≠ []) {n : Nat}
    (hn : n ≤ pre.length) : allPoses E ((pre ++ [z]).drop n) ≠ [] := by
  rw [List.drop_append_of_le_length hn]
  simp [allPoses, hz]

theorem Curve.hasNext_iff {E : RSEnv} {c : Curve} (h : c.Iter E) :
    c.hasNext.2 = c ∧ (c.hasNext.1 = true ↔ c.rem E ≠ []) := by
  obtain ⟨hlt, pre, z, hs, hz⟩ := h
  unfold Curve.hasNext Curve.rem
  rw [List.getElem?_eq_getElem hlt]
  refine ⟨rfl, ?_⟩
  simp only [Bool.or_eq_true, decide_eq_true_eq]
  by_cases hl : c.outNo < c.seq.length - 1
  · have : allPoses E (c.seq.drop (c.outNo + 1)) ≠ [] := by
      rw [hs]
      apply allPoses_ne hz
      rw [hs] at hl; simp at hl; omega
    simp [hl, this]
  · have hd : c.seq.drop (c.outNo + 1) = [] := List.drop_eq_nil_iff.2 (by omega)
    rw [hd]
    simp only [hl, or_false, allPoses, List.flatMap_nil, List.append_nil]
    constructor
    · intro h; rw [Seg.rem_next _ h]; simp
    · intro h
      by_contra hc
      exact h (Seg.rem_nil _ (by simpa using hc))

theorem set_iter {E : RSEnv} {c : Curve} (h : c.Iter E) (i j : Nat) (s t : Seg)
    (hs : c.seq[i]? = some s) (hr : t.reset E = s.reset E) (hj : j < c.seq.length) :
    Curve.Iter E { c with seq := c.seq.set i t, outNo := j } := by
  obtain ⟨_, pre, z, hz, hne⟩ := h
  refine ⟨by simpa using hj, ?_⟩
  by_cases hi : i < pre.length
  · refine ⟨pre.set i t, z, ?_, hne⟩
    simp [hz, hi]
  · have hlt : i < c.seq.length := by
      by_contra hc
      rw [List.getElem?_eq_none (by omega)] at hs; cases hs
    rw [hz] at hlt hs
    simp only [List.length_append, List.length_singleton] at hlt
    have hi' : i = pre.length := by omega
    subst hi'
    simp only [List.getElem?_append_right (Nat.le_refl _), Nat.sub_self, List.getElem?_cons_zero,
      Option.some.injEq] at hs
    subst hs
    refine ⟨pre, t, ?_, by rw [hr]; exact hne⟩
    simp [hz]

theorem nextAux_spec (E : RSEnv) (fuel : Nat) : ∀ c : Curve, c.Iter E →
    c.seq.length ≤ c.outNo + 1 + fuel → c.hasNext.1 = true →
    ∃ p c', c.nextAux E fuel = .ok (p, c') ∧ c'.Iter E ∧ c.rem E = p :: c'.rem E := by
  induction fuel with
  | zero =>
    intro c hI hlen hn
    have hlt := hI.lt
    have hl : ¬ c.outNo < c.seq.length - 1 := by omega
    have hsN : (c.seq[c.outNo]).hasNext = true := by
      unfold Curve.hasNext at hn
      rw [List.getElem?_eq_getElem hlt] at hn
      simpa [hl] using hn
    refine ⟨c.seq[c.outNo].next.1, _, ?_, set_iter hI c.outNo c.outNo _ _ (List.getElem?_eq_getElem hlt)
      (Seg.reset_next E c.seq[c.outNo]) hlt, ?_⟩
    · rw [Curve.nextAux, List.getElem?_eq_getElem hlt]
      simp only [hsN, if_true]
    · unfold Curve.rem
      rw [List.getElem?_eq_getElem hlt]
      simp [hlt, Seg.rem_next _ hsN, List.drop_set]
  | succ fuel ih =>
    intro c hI hlen hn
    have hlt := hI.lt
    by_cases hsN : (c.seq[c.outNo]).hasNext = true
    · refine ⟨c.seq[c.outNo].next.1, _, ?_, set_iter hI c.outNo c.outNo _ _ (List.getElem?_eq_getElem hlt)
        (Seg.reset_next E c.seq[c.outNo]) hlt, ?_⟩
      · rw [Curve.nextAux, List.getElem?_eq_getElem hlt]
        simp only [hsN, if_true]
      · unfold Curve.rem
        rw [List.getElem?_eq_getElem hlt]
        simp [hlt, Seg.rem_next _ hsN, List.drop_set]
    · have hl : c.outNo < c.seq.length - 1 := by
        unfold Curve.hasNext at hn
        rw [List.getElem?_eq_getElem hlt] at hn
        simpa [hsN] using hn
      have hlt2 : c.outNo + 1 < c.seq.length := by omega
      have hI' : Curve.Iter E { c with
          outNo := c.outNo + 1, seq := c.seq.set (c.outNo + 1) (c.seq[c.outNo + 1].reset E) } :=
        set_iter hI (c.outNo + 1) (c.outNo + 1) _ _ (List.getElem?_eq_getElem hlt2)
          (Seg.reset_reset E _) hlt2
      have hrem : c.rem E = Curve.rem E { c with
          outNo := c.outNo + 1, seq := c.seq.set (c.outNo + 1) (c.seq[c.outNo + 1].reset E) } := by
        unfold Curve.rem
        rw [List.getElem?_eq_getElem hlt]
        simp only [Seg.rem_nil _ (by simpa using hsN), List.nil_append]
        simp only [hlt2, allPoses, List.drop_set, List.getElem?_set_self, Nat.lt_succ_self, if_true]
        conv_lhs => rw [List.drop_eq_getElem_cons hlt2]
        rw [List.flatMap_cons]
      have hn' : (Curve.hasNext { c with
          outNo := c.outNo + 1, seq := c.seq.set (c.outNo + 1) (c.seq[c.outNo + 1].reset E) }).1 =
          true := by
        rw [(Curve.hasNext_iff hI').2, ← hrem]
        exact (Curve.hasNext_iff hI).2.1 hn
      obtain ⟨p, c', h1, h2, h3⟩ := ih _ hI' (by simp; omega) hn'
      refine ⟨p, c', ?_, h2, by rw [hrem]; exact h3⟩
      rw [Curve.nextAux, List.getElem?_eq_getElem hlt]
      simp only [hsN, Bool.false_eq_true, if_false, hn, if_true, List.getElem?_eq_getElem hlt2]
      exact h1

theorem collect_rem (E : RSEnv) (fuel : Nat) : ∀ c : Curve, c.Iter E → (c.rem E).length ≤ fuel →
    c.collect E fuel = .ok (some (c.rem E)) := by
  induction fuel with
  | zero =>
    intro c hI hl
    have h0 : c.rem E = [] := List.length_eq_zero_iff.1 (by omega)
    have : ¬ c.hasNext.1 = true := by rw [(Curve.hasNext_iff hI).2, h0]; simp
    rw [Curve.collect, if_neg this, h0]
  | succ fuel ih =>
    intro c hI hl
    rw [Curve.collect]
    by_cases hn : c.hasNext.1 = true
    · rw [if_pos hn, (Curve.hasNext_iff hI).1]
      obtain ⟨p, c', h1, h2, h3⟩ := nextAux_spec E c.seq.length c hI (by omega) hn
      have : c.next E = .ok (p, c') := h1
      rw [this, CRes.ok_bind, ih c' h2 (by rw [h3] at hl; simpa using hl), CRes.ok_bind, h3]
      rfl
    · rw [if_neg hn]
      have : c.rem E = [] := by
        by_contra hc
        exact hn ((Curve.hasNext_iff hI).2.2 hc)
      rw [this]

/-- **C41.** Resetting a curve that ends with a turn and then reading it with `has_next`/`next` yields
the concatenation of the poses of its segments in order, then ends — from every state of the curve (in
particular in the middle of an earlier iteration). -/
theorem collect_all (E : RSEnv) (c : Curve) (pre : List Seg) (z : Circ) (hs : c.seq = pre ++ [.circ z])
    (fuel : Nat) (hf : (allPoses E c.seq).length ≤ fuel) :
    (c.reset E).collect E fuel = .ok (some (allPoses E c.seq)) := by
  have hne : c.seq ≠ [] := by rw [hs]; simp
  have hI : (c.reset E).Iter E := by
    refine ⟨?_, pre.map (Seg.reset E), (Seg.circ z).reset E, by simp [Curve.reset, hs], ?_⟩
    · simp only [Curve.reset, if_neg hne, List.length_map]
      exact List.length_pos_iff.2 hne
    · rw [Seg.reset_reset]; exact Circ.rem_reset_ne E z
  have hrem : (c.reset E).rem E = allPoses E c.seq := by
    unfold Curve.rem
    simp only [Curve.reset, if_neg hne]
    rcases hc : c.seq with _ | ⟨s, rest⟩
    · exact absurd hc hne
    · simp [allPoses, List.flatMap_map, Seg.reset_reset]
  rw [← hrem]
  exact collect_rem E fuel _ hI (by rw [hrem]; exact hf)

/-- **C41 (a curve without segments).**  It has no poses, in every state, and asking ends the iteration. -/
theorem collect_empty (E : RSEnv) (c : Curve) (hs : c.seq = []) (fuel : Nat) :
    c.collect E fuel = .ok (some []) ∧ c.hasNext.2.iterating = false ∧ c.next E = .ub := by
  have h : c.hasNext = (false, { c with iterating := false }) := by
    unfold Curve.hasNext; rw [hs]; rfl
  refine ⟨by cases fuel <;> simp [Curve.collect, h], by rw [h], ?_⟩
  unfold Curve.next Curve.nextAux
  rw [hs]; rfl

theorem map_set_reset (E : RSEnv) (l : List Seg) (i : Nat) (s t : Seg) (hs : l[i]? = some s)
    (h : t.reset E = s.reset E) : (l.set i t).map (Seg.reset E) = l.map (Seg.reset E) := by
  rw [List.map_set, h]
  refine List.ext_getElem? fun j => ?_
  rw [List.getElem?_set]
  split_ifs with h1 h2
  · subst h1; simp [hs]
  · subst h1
    simp only [List.length_map] at h2
    rw [List.getElem?_eq_none (by omega)] at hs; cases hs
  · rfl

theorem nextAux_reset (E : RSEnv) (fuel : Nat) : ∀ (c c' : Curve) (p : Pose),
    c.nextAux E fuel = .ok (p, c') → c'.seq.map (Seg.reset E) = c.seq.map (Seg.reset E) := by
  induction fuel with
  | zero =>
    intro c c' p h
    rw [Curve.nextAux] at h
    cases hs : c.seq[c.outNo]? with
    | none => rw [hs] at h; cases h
    | some s =>
      rw [hs] at h
      simp only at h
      split_ifs at h with h1 h2
      · simp only [CRes.ok.injEq, Prod.mk.injEq] at h
        obtain ⟨_, rfl⟩ := h
        exact map_set_reset E _ _ s _ hs (Seg.reset_next E s)
      · simp only [CRes.ok.injEq, Prod.mk.injEq] at h
        obtain ⟨_, rfl⟩ := h
        rfl
  | succ fuel ih =>
    intro c c' p h
    rw [Curve.nextAux] at h
    cases hs : c.seq[c.outNo]? with
    | none => rw [hs] at h; cases h
    | some s =>
      rw [hs] at h
      simp only at h
      split_ifs at h with h1 h2
      · simp only [CRes.ok.injEq, Prod.mk.injEq] at h
        obtain ⟨_, rfl⟩ := h
        exact map_set_reset E _ _ s _ hs (Seg.reset_next E s)
      · cases ht : c.seq[c.outNo + 1]? with
        | none => rw [ht] at h; cases h
        | some t =>
          rw [ht] at h
          rw [ih _ _ _ h]
          exact map_set_reset E _ _ t _ ht (Seg.reset_reset E t)
      · simp only [CRes.ok.injEq, Prod.mk.injEq] at h
        obtain ⟨_, rfl⟩ := h
        rfl

/-- Curves that differ from `c` only by calls of `reset_iteration`, `has_next` and `next`. -/
inductive Read (E : RSEnv) (c : Curve) : Curve → Prop
  | refl : Read E c c
  | reset {d : Curve} : Read E c d → Read E c (d.reset E)
  | hasNext {d : Curve} : Read E c d → Read E c d.hasNext.2
  | next {d d' : Curve} {p : Pose} : Read E c d → d.next E = .ok (p, d') → Read E c d'

theorem hasNext_seq (d : Curve) : d.hasNext.2.seq = d.seq := by
  unfold Curve.hasNext; split <;> rfl

theorem Read.seq {E : RSEnv} {c d : Curve} (h : Read E c d) :
    d.seq.map (Seg.reset E) = c.seq.map (Seg.reset E) := by
  induction h with
  | refl => rfl
  | @reset d _ ih =>
    rw [← ih]
    simp only [Curve.reset, List.map_map]
    exact List.map_congr_left fun s _ => Seg.reset_reset E s
  | hasNext _ ih => rw [hasNext_seq, ih]
  | next _ hn ih => rw [nextAux_reset E _ _ _ _ hn, ih]

/-- The flag `m_iterating` of a segment. -/
def Seg.started : Seg → Prop
  | .line l => l.iterating = true
  | .circ c => c.iterating = true

theorem Seg.reset_started (E : RSEnv) (s : Seg) : (s.reset E).started := by
  cases s with
  | line l => rfl
  | circ c =>
    simp only [Seg.reset, Seg.started, Circ.reset, Circ.computeArc]
    try (split_ifs <;> rfl)

theorem Seg.next_started (s : Seg) (h : s.started) : s.next.2.started := by
  cases s with
  | line l => exact h
  | circ c => exact h

theorem nextAux_started (E : RSEnv) : ∀ (fuel : Nat) (c d : Curve) (p : Pose), c.nextAux E fuel = .ok (p, d) →
    (∀ s ∈ c.seq, s.started) → ∀ s ∈ d.seq, s.started := by
  intro fuel
  induction fuel with
  | zero =>
    intro c d p h hc
    unfold Curve.nextAux at h
    cases hs : c.seq[c.outNo]? with
    | none => rw [hs] at h; cases h
    | some s =>
      rw [hs] at h
      simp only at h
      split_ifs at h with h1 h2
      · simp only [CRes.ok.injEq, Prod.mk.injEq] at h
        obtain ⟨_, rfl⟩ := h
        intro t ht
        rcases List.mem_or_eq_of_mem_set ht with ht | rfl
        · exact hc t ht
        · exact Seg.next_started s (hc s (List.mem_of_getElem? hs))
      · simp only [CRes.ok.injEq, Prod.mk.injEq] at h
        obtain ⟨_, rfl⟩ := h
        exact hc
  | succ fuel ih =>
    intro c d p h hc
    unfold Curve.nextAux at h
    cases hs : c.seq[c.outNo]? with
    | none => rw [hs] at h; cases h
    | some s =>
      rw [hs] at h
      simp only at h
      split_ifs at h with h1 h2
      · simp only [CRes.ok.injEq, Prod.mk.injEq] at h
        obtain ⟨_, rfl⟩ := h
        intro t ht
        rcases List.mem_or_eq_of_mem_set ht with ht | rfl
        · exact hc t ht
        · exact Seg.next_started s (hc s (List.mem_of_getElem? hs))
      · cases ht : c.seq[c.outNo + 1]? with
        | none => rw [ht] at h; cases h
        | some t =>
          rw [ht] at h
          refine ih _ _ _ h fun u hu => ?_
          rcases List.mem_or_eq_of_mem_set hu with hu | rfl
          · exact hc u hu
          · exact Seg.reset_started E t
      · simp only [CRes.ok.injEq, Prod.mk.injEq] at h
        obtain ⟨_, rfl⟩ := h
        exact hc

/-- **C41 (no assert fails).**  Once `reset_iteration` of a curve has been called, whatever calls of `has_next`, `next` and
`reset_iteration` follow, the asserts `m_iterating` of the segments (CircleSegment.cpp:309, 316, LineSegment.cpp:108, 115) hold. -/
theorem read_started {E : RSEnv} {c d : Curve} (h : Read E (c.reset E) d) : ∀ s ∈ d.seq, s.started := by
  have hr : ∀ e : Curve, ∀ s ∈ (e.reset E).seq, s.started := by
    intro e s hs
    obtain ⟨t, _, rfl⟩ := List.mem_map.1 hs
    exact Seg.reset_started E t
  induction h with
  | refl => exact hr c
  | reset _ _ => exact hr _
  | hasNext _ ih => rw [hasNext_seq]; exact ih
  | next _ hn ih => exact nextAux_started E _ _ _ _ hn ih

/-- **C41.** `reset_iteration` restarts the same sequence, whatever calls were made before. -/
theorem reset_restarts (E : RSEnv) (c d : Curve) (pre : List Seg) (z : Circ)
    (hs : c.seq = pre ++ [.circ z]) (h : Read E c d) (fuel : Nat)
    (hf : (allPoses E c.seq).length ≤ fuel) :
    (d.reset E).collect E fuel = .ok (some (allPoses E c.seq)) := by
  have hseq := h.seq
  have hap : ∀ l : List Seg, allPoses E l = (l.map (Seg.reset E)).flatMap Seg.rem := by
    intro l; simp [allPoses, List.flatMap_map]
  have hall : allPoses E d.seq = allPoses E c.seq := by rw [hap, hap, hseq]
  obtain ⟨pre', z', hd⟩ : ∃ pre' z', d.seq = pre' ++ [.circ z'] := by
    have hne : d.seq ≠ [] := by
      intro h0; rw [h0, hs] at hseq; simp at hseq
    obtain ⟨q, s, hq⟩ : ∃ q s, d.seq = q ++ [s] :=
      ⟨_, _, (List.dropLast_append_getLast hne).symm⟩
    have h1 := congrArg List.getLast? hseq
    rw [hq, hs] at h1
    simp only [List.map_append, List.map_cons, List.map_nil, List.getLast?_append,
      List.getLast?_singleton, Option.some_or, Option.some.injEq] at h1
    cases s with
    | line l => simp [Seg.reset] at h1
    | circ z' => exact ⟨q, z', hq⟩
  rw [← hall]
  exact collect_all E d pre' z' hd fuel (by rw [hall]; exact hf)

/-! ### The poses are way points of the motion -/

/-- **C41.** The poses of a curve that describes a motion (`Track`, established for accepted curves by
`check_track`) are the way points of that motion. -/
theorem allPoses_waypoints {E : RSEnv} (hE : E.Sane) (segs : List Seg) :
    ∀ (q goal : Pose), Track E q segs goal → List.Forall₂ SameConfig (allPoses E segs)
      (waypoints E.radius E.maxDist q (segs.map fun s => (elemOf s, amountOf s))) := by
  induction segs with
  | nil => intro q goal _; exact .nil
  | cons s rest ih =>
    intro q goal ht
    obtain ⟨h1, h2⟩ := ht
    have hrest := ih _ _ h2
    simp only [allPoses, List.flatMap_cons, List.map_cons, waypoints]
    refine List.rel_append ?_ hrest
    have hmd := hE.maxDist
    have hrad : 0 < E.radius := lt_of_lt_of_le one_pos hE.radius
    cases s with
    | circ c =>
      obtain ⟨hr, hfit, hq⟩ := h1
      have hd : ∀ t, SameConfig (c.confAt (c.aStart + oriSign c.ori * dirSign c.dir * t))
          (drive E.radius q (.turn c.ori c.dir) t) := by
        intro t
        have := (hq.drive c.radius (.turn c.ori c.dir) t).symm
        rw [Circ.drive_confAt] at this
        rw [hr] at this
        exact this
      have harc := computeArc_signed hE.clamp c
      have hone : oriSign c.ori * dirSign c.dir = 1 ∨ oriSign c.ori * dirSign c.dir = -1 := by
        cases c.ori <;> cases c.dir <;> norm_num [oriSign, dirSign]
      have hspec := computeArc_spec hE.clamp c
      have hstep : (c.computeArc E).step = oriSign c.ori * dirSign c.dir * (E.maxDist / E.radius) := by
        have : (c.computeArc E).step = E.maxDist / c.radius *
          (if 0 ≤ (c.computeArc E).arc then 1 else -1) := rfl
        rw [this, hr]
        rcases hone with h | h
        · rw [if_pos (hspec.2.1 h).1, h]; ring
        · rw [if_neg (not_le.2 (hspec.2.2 h).2), h]; ring
      have hq' : (c.computeArc E).arc / (c.computeArc E).step = |c.arc| * E.radius / E.maxDist := by
        rw [hstep, harc.1, ← hfit.1]
        rcases hone with h | h <;> rw [h] <;> field_simp
      have hsteps : (c.computeArc E).steps = max 1 ⌊|c.arc| * E.radius / E.maxDist⌋ := by
        have : (c.computeArc E).steps =
          max 1 |⌊(c.computeArc E).arc / (c.computeArc E).step⌋| := rfl
        rw [this, hq', abs_of_nonneg (Int.floor_nonneg.2 (by positivity))]
      simp only [elemOf, amountOf, elemWaypoints, Seg.reset, Seg.rem]
      have e1 : (c.reset E).steps = (c.computeArc E).steps := rfl
      have e2 : (c.reset E).output = 0 := rfl
      have en : ((c.reset E).steps - (c.reset E).output + 1).toNat =
          max 1 ⌊|c.arc| * E.radius / E.maxDist⌋.toNat + 1 := by
        rw [e1, e2, hsteps]; omega
      rw [en]
      rw [List.forall₂_map_left_iff, List.forall₂_map_right_iff, List.forall₂_same]
      intro i _
      have hp : (c.reset E).poseAt ((c.reset E).output + (i : Int)) =
          c.confAt (c.aStart + oriSign c.ori * dirSign c.dir * (i * (E.maxDist / E.radius))) := by
        have hs' : (c.reset E).step = (c.computeArc E).step := rfl
        have ea : c.aStart + (c.reset E).step * ((0 + (i : Int) : Int) : ℝ) =
            c.aStart + oriSign c.ori * dirSign c.dir * (i * (E.maxDist / E.radius)) := by
          rw [hs', hstep]; push_cast; ring
        rw [e2, ← ea]
        simp only [Circ.poseAt, Circ.next, Circ.confAt]
        have f1 : (c.reset E).aStart = c.aStart := rfl
        have f2 : (c.reset E).center = c.center := rfl
        have f3 : (c.reset E).radius = c.radius := rfl
        have f4 : (c.reset E).ori = c.ori := rfl
        rw [f1, f2, f3, f4]
        ext
        · simp [P2.rotate]
        · simp [P2.rotate]
        · cases c.ori <;> simp [oriSign] <;> ring
      rw [hp]
      exact hd _
    | line l =>
      obtain ⟨hx, hy, dx, dy, hθ⟩ := h1
      set len := eucl l.start.pt l.stop.pt with hlen
      have hlen0 : 0 ≤ len := Real.sqrt_nonneg _
      have hseg : (l.reset E).segments = ⌊len / E.maxDist⌋ := by
        have : (l.reset E).segments = truncC (l.start.distTo l.stop / E.maxDist) := rfl
        rw [this, distTo_eq, ← hlen]
        unfold truncC
        rw [if_pos (by positivity)]
      have hfl : 0 ≤ ⌊len / E.maxDist⌋ := Int.floor_nonneg.2 (by positivity)
      simp only [elemOf, amountOf, elemWaypoints, Seg.reset, Seg.rem, ← hlen]
      have e2 : (l.reset E).output = 0 := rfl
      rw [e2, hseg, sub_zero]
      rw [List.forall₂_map_left_iff, List.forall₂_map_right_iff, List.forall₂_same]
      intro i hi
      rw [List.mem_range] at hi
      have hpos : 0 < ⌊len / E.maxDist⌋ := by omega
      have hlpos : 0 < len := by
        rcases hlen0.lt_or_eq with h | h
        · exact h
        · rw [← h] at hpos; simp at hpos
      have hcast : ((⌊len / E.maxDist⌋.toNat : Nat) : ℝ) = (⌊len / E.maxDist⌋ : ℝ) := by
        have : ((⌊len / E.maxDist⌋.toNat : Nat) : Int) = ⌊len / E.maxDist⌋ := Int.toNat_of_nonneg hfl
        exact_mod_cast this
      have hm0 : (⌊len / E.maxDist⌋ : ℝ) ≠ 0 := by
        have : (0 : ℝ) < ⌊len / E.maxDist⌋ := by exact_mod_cast hpos
        exact this.ne'
      have hang : Real.cos l.theta = dirSign l.dir * Real.cos q.theta ∧
          Real.sin l.theta = dirSign l.dir * Real.sin q.theta := by
        have hl' : (l.stop.pt - l.start.pt).length = len := by
          rw [hlen, eucl_comm]; unfold P2.length eucl dist2; simp
        have p1 := polar_x (l.stop.pt - l.start.pt)
        have p2 := polar_y (l.stop.pt - l.start.pt)
        rw [hl', ← hθ] at p1 p2
        have q1 : (l.stop.pt - l.start.pt).x = l.stop.x - l.start.x := rfl
        have q2 : (l.stop.pt - l.start.pt).y = l.stop.y - l.start.y := rfl
        rw [q1, dx] at p1
        rw [q2, dy] at p2
        constructor
        · have := mul_left_cancel₀ hlpos.ne' (p1.trans (mul_comm _ _)); exact this.symm
        · have := mul_left_cancel₀ hlpos.ne' (p2.trans (mul_comm _ _)); exact this.symm
      have g1 : (l.reset E).start = l.start := rfl
      have g2 : (l.reset E).stop = l.stop := rfl
      have g3 : (l.reset E).dir = l.dir := rfl
      have g4 : (l.reset E).theta = l.theta := rfl
      refine SameConfig.of_trig ?_ ?_ ?_ ?_
      · simp only [Lin.poseAt, Lin.next, Pose.add, Pose.smul, Pose.sub, hseg, g1, g2, drive, hcast]
        rw [← hx, dx]
        push_cast
        field_simp
        ring
      · simp only [Lin.poseAt, Lin.next, Pose.add, Pose.smul, Pose.sub, hseg, g1, g2, drive, hcast]
        rw [← hy, dy]
        push_cast
        field_simp
        ring
      · simp only [Lin.poseAt, Lin.next, g3, g4, drive]
        cases hdir : l.dir <;> rw [hdir] at hang <;> simp [dirSign] at hang ⊢
        · exact hang.1
        · rw [hang.1]; ring
      · simp only [Lin.poseAt, Lin.next, g3, g4, drive]
        cases hdir : l.dir <;> rw [hdir] at hang <;> simp [dirSign] at hang ⊢
        · exact hang.2
        · rw [hang.2]; ring

/-- A curve returned by `find_path` ends with a turn. -/
theorem findPath_last (g g' : Gen) (clamp : ℝ → ℝ) (start goal : Pose) (map : MapIf) (ig : Bool)
    (hE : (g.env clamp map ig).Sane) (halt : ∀ c ∈ g.curves, Alternating (elemsOf c.seq))
    (k : Curve) (h : g.findPath clamp start goal map ig = .ok (g', some k)) : ∃ pre z, k.seq = pre ++ [.circ z] := by
  cases hm : g.maxArc with
  | none => exact absurd (findPath_needs_maxArc g g' clamp start goal map ig hm _ h) (by simp)
  | some m =>
    obtain ⟨hf, _, hb⟩ := findPath_best g g' clamp start goal map ig m hm _ h
    obtain ⟨pre, post, e, he, _⟩ := hb k rfl
    obtain ⟨c, hc, ht⟩ := forall₂_mem hf (b := k) (by rw [e]; simp)
    obtain ⟨_, t2⟩ := check_track (E := g.env clamp map ig) hE.clamp
      (lt_of_lt_of_le one_pos hE.radius) _ k ht he.1 (halt c hc)
    by_contra hno
    have hu : ¬ (c.seq.length < 3 ∨ c.seq.length > 4) := by
      intro h3
      have := check_rejects (g.env clamp map ig) { c with start := start, goal := goal }
        (Or.inr (by simp only; omega))
      unfold Tested at ht
      rw [this] at ht
      injection ht with ht
      rw [← ht] at he
      exact lt_irrefl _ he.1
    have hd : ¬ start.distTo goal < 2 := by
      intro h3
      have := check_rejects (g.env clamp map ig) { c with start := start, goal := goal } (Or.inl h3)
      unfold Tested at ht
      rw [this] at ht
      injection ht with ht
      rw [← ht] at he
      exact lt_irrefl _ he.1
    have hel : ∃ pre' z, c.seq = pre' ++ [.circ z] := by
      rcases check_shape (g.env clamp map ig) { c with start := start, goal := goal } hu hd with
        ⟨a, l, b, hs, _⟩ | ⟨a, l, b, hs, _⟩ | ⟨a, l, l', b, hs, _⟩ | ⟨a, l, l', b, hs, _, _⟩ | ⟨_, hub⟩
      · exact ⟨[.circ a, .line l], b, hs⟩
      · exact ⟨[.circ a, .circ l], b, hs⟩
      · exact ⟨[.circ a, .circ l, .circ l'], b, hs⟩
      · exact ⟨[.circ a, l, l'], b, hs⟩
      · exact absurd (hub.symm.trans ht) (by simp)
    obtain ⟨pre', z, hz⟩ := hel
    have hne : k.seq ≠ [] := by
      intro h0
      rw [h0, hz] at t2
      simp [elemsOf] at t2
    obtain ⟨q, s, hq⟩ : ∃ q s, k.seq = q ++ [s] := ⟨_, _, (List.dropLast_append_getLast hne).symm⟩
    have h1 := congrArg List.getLast? t2
    rw [hq, hz] at h1
    simp only [elemsOf, List.map_append, List.map_cons, List.map_nil, List.getLast?_append,
      List.getLast?_singleton, Option.some_or, Option.some.injEq] at h1
    cases s with
    | line l => simp [elemOf] at h1
    | circ z' => exact hno ⟨q, z', hq⟩

/-- **C41, end to end.** Iterating the curve returned by `find_path` (with the settings it was found
with) yields exactly the way points of its motion from `start`: on every turn one pose each
`max_waypoint_distance`, on every straight evenly spaced poses, each a configuration of the car driving
that motion; then the iteration ends. -/
theorem findPath_waypoints (g g' : Gen) (clamp : ℝ → ℝ) (start goal : Pose) (map : MapIf) (ig : Bool)
    (hE : (g.env clamp map ig).Sane) (halt : ∀ c ∈ g.curves, Alternating (elemsOf c.seq))
    (k : Curve) (h : g.findPath clamp start goal map ig = .ok (g', some k)) :
    ∃ ps, (∀ fuel, ps.length ≤ fuel →
        (k.reset (g.env clamp map ig)).collect (g.env clamp map ig) fuel = .ok (some ps)) ∧
      List.Forall₂ SameConfig ps
        (waypoints (g.radius / map.res) (g.maxWp / map.res) start (motion k)) := by
  cases hm : g.maxArc with
  | none => exact absurd (findPath_needs_maxArc g g' clamp start goal map ig hm _ h) (by simp)
  | some m =>
    obtain ⟨hf, _, hb⟩ := findPath_best g g' clamp start goal map ig m hm _ h
    obtain ⟨pre, post, e, he, _⟩ := hb k rfl
    obtain ⟨c, hc, ht⟩ := forall₂_mem hf (b := k) (by rw [e]; simp)
    obtain ⟨t1, t2⟩ := check_track (E := g.env clamp map ig) hE.clamp
      (lt_of_lt_of_le one_pos hE.radius) _ k ht he.1 (halt c hc)
    have hlast := findPath_last g g' clamp start goal map ig hE halt k h
    obtain ⟨pre', z, hz⟩ := hlast
    refine ⟨allPoses (g.env clamp map ig) k.seq, fun fuel hfu => collect_all _ k pre' z hz fuel hfu, ?_⟩
    exact allPoses_waypoints hE k.seq start goal t1

/-! ### Findings -/

/-- **C41, finding.** On a straight of length `a ≥ md` the distance of consecutive way points is at
least the configured maximum (more, unless `a` is a multiple of it). -/
theorem straight_spacing {a md : ℝ} (hmd : 0 < md) (ha : md ≤ a) :
    md ≤ a / ⌊a / md⌋.toNat ∧ (a / ⌊a / md⌋.toNat = md ↔ ∃ n : Nat, a = n * md) := by
  have h1 : 1 ≤ ⌊a / md⌋ := Int.le_floor.2 (by push_cast; rw [le_div_iff₀ hmd]; linarith)
  have hcast : ((⌊a / md⌋.toNat : Nat) : ℝ) = (⌊a / md⌋ : ℝ) := by
    have : ((⌊a / md⌋.toNat : Nat) : Int) = ⌊a / md⌋ := Int.toNat_of_nonneg (by omega)
    exact_mod_cast this
  have h2 : (⌊a / md⌋ : ℝ) ≤ a / md := Int.floor_le _
  have h3 : (0 : ℝ) < ⌊a / md⌋ := by exact_mod_cast (by omega : (0 : Int) < ⌊a / md⌋)
  rw [le_div_iff₀ hmd] at h2
  constructor
  · rw [hcast, le_div_iff₀ h3]; linarith
  · rw [hcast, div_eq_iff h3.ne']
    constructor
    · intro h; exact ⟨⌊a / md⌋.toNat, by rw [hcast]; linarith⟩
    · rintro ⟨n, rfl⟩
      rw [mul_div_cancel_right₀ _ hmd.ne', Int.floor_natCast]; push_cast; ring

/-- **C41, finding.** On a turn shorter than the way point distance (for example an empty one) the
second pose lies beyond the end of the turn: the car would have to turn by more than the arc. -/
theorem turn_overshoot {r md a : ℝ} (hr : 0 < r) (hmd : 0 < md) (ha0 : 0 ≤ a) (ha : a * r < md) (q : Pose)
    (o : Ori) (d : Dir) :
    elemWaypoints r md q (.turn o d) a = [drive r q (.turn o d) 0, drive r q (.turn o d) (md / r)] ∧
      a < md / r := by
  have h0 : ⌊a * r / md⌋ = 0 := by
    rw [Int.floor_eq_zero_iff]
    exact ⟨by positivity, (div_lt_one hmd).2 ha⟩
  constructor
  · simp [elemWaypoints, h0, List.range_succ_eq_map]
  · rwa [lt_div_iff₀ hr]

end PathPlanning.RS
